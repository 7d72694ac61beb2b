import Verif.Lemmas.Queue32
import Verif.Props.SingleArc
/-!
# Property C98: queues of motions along lines and arcs on the 3-axis machine in single precision

Motions appended to the queue of the controller, before it is started or while it runs, executed without a pause: the clock goes on
from one motion to the next with the time that is left over. All with `float` arithmetic (`Machine.kit32`).
-/
namespace Moovr.Props
open Num Float32 Single MotionCtrl MotionSpec PulseSpec Straight32

/-- A motion: its request, start, displacement, length and speed. -/
structure Piece where
  r : SimplifiedMotion
  x : Nat → ℝ
  d : Nat → ℝ
  L : ℝ
  g : ℝ

/-- The motion is along a straight line, or along an arc; there the speed is limited by the acceleration towards the centre. (That the
speed is not too low for the length, in `Asked`, follows from `Piece.Ok.brief`.) -/
def Piece.Path (q : ℝ) (a : Piece) : Prop :=
  (LineRequest a.r a.x a.d a.L ∧ Asked a.r a.L q a.g) ∨
  ∃ A g, ArcRequest a.r A a.x a.d a.L ∧ Asked a.r a.L q g ∧ a.g = min g √(200 * A.ρ)

/-- What is required of it: a line or an arc of at least 1/128 mm, executed in at most 85 s (if the machine moved at the speed asked
for all the time). -/
structure Piece.Ok (q : ℝ) (a : Piece) : Prop where
  path : a.Path q
  long : 1 / 128 ≤ a.L
  brief : a.L ≤ 85 * a.g

/-- Each motion starts where the one before ends. -/
def Chain : (Nat → ℝ) → List Piece → Prop
  | _, [] => True
  | x, a :: l => (∀ i, i < 3 → a.x i = x i) ∧ Chain (fun i => x i + a.d i) l

/-- The end of the last motion. -/
def after (x : Nat → ℝ) (l : List Piece) (i : Nat) : ℝ := x i + (l.map fun a => a.d i).sum

/-- A history that only appends motions (while there is room), starts (when stopped) and calculates. -/
def Orderly {K : MotionKit} (c : MotionCtrl K) : List (Call K.Req K.Time K.Ovr) → Prop
  | [] => True
  | k :: ks => (match k with
      | .append _ => c.buffer.level < 32
      | .start => c.state = .stopped
      | .calculate => True
      | _ => False) ∧ ∀ c' r, c.call k = some (c', r) → Orderly c' ks

/-- The motions appended in a history. -/
def appendedRequests {R T O : Type} (ks : List (Call R T O)) : List R :=
  ks.filterMap fun | .append r => some r | _ => none

/-! ## Proof -/

theorem after_nil (x : Nat → ℝ) : after x [] = x := by funext i; simp [after]

theorem after_cons (x : Nat → ℝ) (a : Piece) (l : List Piece) : after x (a :: l) = after (fun i => x i + a.d i) l := by
  funext i; simp [after]; ring

theorem after_append (x : Nat → ℝ) (l l' : List Piece) : after x (l ++ l') = after (after x l) l' := by
  funext i; simp [after]; ring

theorem chain_append (l : List Piece) : ∀ {x : Nat → ℝ} {l' : List Piece}, Chain x (l ++ l') ↔ Chain x l ∧ Chain (after x l) l' := by
  induction l with
  | nil => intro x l'; simp [Chain, after_nil]
  | cons a l ih => intro x l'; simp only [List.cons_append, Chain, ih, after_cons, and_assoc]

theorem asked_ge {r : SimplifiedMotion} {L q g : ℝ} (h : Asked r L q g) : 1 / 10 ≤ g ∧ g ≤ 30 := by
  rcases h with ⟨-, -, rfl⟩ | ⟨f, -, -, -, h, rfl, -⟩
  · norm_num
  · exact ⟨le_min h (by norm_num), min_le_right _ _⟩

theorem asked_pace {r : SimplifiedMotion} {L q g : ℝ} (h : Asked r L q g) (h0 : 0 ≤ L) (hL : L ≤ 420) : L ^ 2 ≤ 99000 * g ^ 3 := by
  rcases h with ⟨-, -, rfl⟩ | ⟨f, -, -, -, h, rfl, h⟩
  · have := pow_le_pow_left₀ h0 hL 2
    norm_num at this ⊢
    linarith
  · exact h

/-- The speed chosen. -/
theorem asked_min {r : SimplifiedMotion} {L q g V : ℝ} (hV : rnd V = V) (hg : Asked r L q g) :
    ∃ v, (if (num V).lt (ofNum r.vFeed * ⟨fin q⟩) then num V else ofNum r.vFeed * ⟨fin q⟩) = num v ∧ rnd v = v ∧ v ≤ V ∧
      min V (9999 / 10000 * g) ≤ v := by
  rcases hg with ⟨hf, hq, rfl⟩ | ⟨f, hf, hq, hq4, hge, rfl, -⟩
  · have e : (ofNum r.vFeed * ⟨fin q⟩ : Single) = ⟨posInf⟩ := by
      show (⟨round32 ((round32 r.vFeed) * fin q)⟩ : Single) = _
      rw [hf]
      show (⟨round32 (infOfSign q)⟩ : Single) = _
      unfold infOfSign
      rw [if_pos hq]; rfl
    rw [e]
    exact ⟨V, if_pos rfl, hV, le_rfl, min_le_left _ _⟩
  · have e : (ofNum r.vFeed * ⟨fin q⟩ : Single) = num (rnd (rnd f * q)) := by rw [hf]; rfl
    rw [e]
    have hf0 : 1 / 40 ≤ f := by
      by_contra hc
      push Not at hc
      have : f * q < 1 / 40 * q := mul_lt_mul_of_pos_right hc hq
      linarith
    have h1 : (1 - eps) * f ≤ rnd f := by
      have := rnd_scale (x := f) (X := f) (by rw [abs_of_nonneg (by linarith)])
        ((by rw [zpow_neg]; norm_num : (2 : ℝ) ^ (-126 : ℤ) ≤ 1 / 40).trans hf0)
      rw [eps_eq] at this
      have := (abs_le.1 this).1
      linarith
    have h2 := mul_le_mul_of_nonneg_right h1 hq.le
    have h3 : (1 - eps) * (rnd f * q) ≤ rnd (rnd f * q) := by
      have h4 : 1 / 20 ≤ rnd f * q := by unfold eps at h2; linarith
      have := rnd_scale (x := rnd f * q) (X := rnd f * q) (by rw [abs_of_nonneg (by linarith)])
        ((by rw [zpow_neg]; norm_num : (2 : ℝ) ^ (-126 : ℤ) ≤ 1 / 20).trans h4)
      rw [eps_eq] at this
      have := (abs_le.1 this).1
      linarith
    have h4 : 9999 / 10000 * (f * q) ≤ rnd (rnd f * q) := by
      unfold eps at h2 h3
      linarith
    have h5 := min_le_left (f * q) 30
    rw [lt_num]
    by_cases hc : V < rnd (rnd f * q)
    · rw [if_pos (by simpa using hc)]
      exact ⟨V, rfl, hV, le_rfl, min_le_left _ _⟩
    · rw [if_neg (by simpa using hc)]
      exact ⟨_, rfl, rnd_rnd _, not_lt.1 hc, (min_le_right _ _).trans (by linarith)⟩

theorem LineRequest.place_eq {r : SimplifiedMotion} {x d : Nat → ℝ} {L : ℝ} {i : Nat} (h : LineRequest r x d L) (hi : i < 3) (s : ℝ) :
    ExecSpec.place r i s = x i + d i * (s / L) := by
  have h0 := h.axes.1
  have h1 := h.axes.2
  have hL := h.toStraight32.L_pos
  unfold ExecSpec.place
  simp only [if_neg (show ¬ i = r.trajectory.arcAxis0 by omega), if_neg (show ¬ i = r.trajectory.arcAxis1 by omega), h.from_ i hi,
    h.by_ i hi, h.length]
  show x i + d i / L * s = _
  field_simp

theorem Piece.Ok.facts {q : ℝ} {a : Piece} (h : a.Ok q) : 0 < a.L ∧ 0 < a.g ∧ a.r.type.moves = true ∧ a.r.trajectory.length = fin a.L ∧
    ∀ i, i < 3 → ExecSpec.place a.r i 0 = a.x i ∧ ExecSpec.place a.r i a.L = a.x i + a.d i := by
  rcases h.path with ⟨hl, hg⟩ | ⟨A, g, ha, hg, e⟩
  · have hL := hl.toStraight32.L_pos
    refine ⟨hL, by have := asked_ge hg; linarith, by rcases hl.type with h | h <;> rw [h] <;> rfl, hl.length, fun i hi => ?_⟩
    rw [hl.place_eq hi, hl.place_eq hi, div_self hL.ne']
    simp
  · have hρ := ha.toArc32.ρ_pos
    refine ⟨ha.toArc32.L_pos, ?_, by rcases ha.type with h | h <;> rw [h] <;> rfl, ha.length,
      fun i hi => ⟨ha.place_zero hi, ha.place_end hi⟩⟩
    rw [e]
    exact lt_min (by have := asked_ge hg; linarith) (Real.sqrt_pos.2 (by positivity))

/-! ### Cells -/

/-- The limits of the speed and the acceleration along the path, as computed. -/
private def Kind (q : ℝ) (a : Piece) (V A : ℝ) : Prop :=
  (LineRequest a.r a.x a.d a.L ∧ Asked a.r a.L q a.g ∧ V = rnd (30 / top a.d a.L) ∧ A = acc a.d a.L) ∨
  ∃ C g, ArcRequest a.r C a.x a.d a.L ∧ Asked a.r a.L q g ∧ a.g = min g √(200 * C.ρ) ∧ V = min (turning C.ρ) 30 ∧ A = 200

/-- The limits of a motion are those of its path; it begins and ends at rest. -/
private structure Limits (q : ℝ) (a : Piece) (p : Profile32) : Prop where
  path : ∃ V A, Kind q a V A ∧ p.Resting A A 600 ∧ p.vMax = num V
  vFeed : p.vFeed = ofNum a.r.vFeed

private theorem arc_speed {C : Curve} {x d : Nat → ℝ} {L q g : ℝ} {r : SimplifiedMotion} (h : Arc32 C x d L) (hg : Asked r L q g) :
    ∃ v, (if (num (min (turning C.ρ) 30)).lt (ofNum r.vFeed * ⟨fin q⟩) then num (min (turning C.ρ) 30) else ofNum r.vFeed * ⟨fin q⟩) = num v ∧
      Arc32.Speed L v ∧ 999 / 1000 * min g √(200 * C.ρ) ≤ v := by
  have hV : rnd (min (turning C.ρ) 30) = min (turning C.ρ) 30 := by
    rcases min_choice (turning C.ρ) 30 with e | e <;> rw [e]
    · exact rnd_rnd _
    · have := rnd_int (m := 30) (by norm_num); simpa using this
  obtain ⟨v, h1, h2, h3, h4⟩ := asked_min hV hg
  obtain ⟨n1, -⟩ := turning_near h.radius.1
  have hg1 := asked_ge hg
  have hsq : 175 / 100 ≤ √(200 * C.ρ) := Real.le_sqrt_of_sq_le (by have := h.radius.1; norm_num; linarith)
  have m1 := min_le_left g √(200 * C.ρ)
  have m2 := min_le_right g √(200 * C.ρ)
  have m3 : 1 / 10 ≤ min g √(200 * C.ρ) := le_min hg1.1 (by linarith)
  have h5 : 9999 / 10000 * min g √(200 * C.ρ) ≤ v := by
    refine le_trans (le_min (le_min ?_ ?_) ?_) h4 <;> linarith
  refine ⟨v, h1, ⟨h2, by linarith, h3.trans (min_le_right _ _), ?_⟩, by linarith⟩
  have hL2 : rnd L ^ 2 ≤ 10001 / 10000 * L ^ 2 := by
    have := pow_le_pow_left₀ (rnd_nonneg h.L_pos.le) h.Lf.2 2
    rw [mul_pow] at this
    refine this.trans (mul_le_mul_of_nonneg_right ?_ (sq_nonneg L))
    unfold eps; norm_num
  rcases le_total g √(200 * C.ρ) with c | c
  · rw [min_eq_left c] at h5
    have h6 := pow_le_pow_left₀ (show 0 ≤ 9999 / 10000 * g by linarith) h5 3
    rw [mul_pow] at h6
    have h7 : 0 ≤ g ^ 3 := pow_nonneg (by linarith) 3
    have h8 := asked_pace hg h.L_pos.le h.short
    norm_num at h6
    linarith
  · rw [min_eq_right c] at h5
    have h6 := pow_le_pow_left₀ (by norm_num) (show 17 / 10 ≤ v by linarith) 3
    have h7 := pow_le_pow_left₀ h.L_pos.le h.short 2
    norm_num at h6 h7
    linarith

private structure Base (fpu : Fpu) (q : ℝ) (m : Motion (cnc3axis32.kit32 fpu)) (a : Piece) : Prop where
  ok : a.Ok q
  type : Path32.type m.traj = a.r.type
  traj : Path32.trajectory m.traj = .ofReq a.r.trajectory
  limits : Limits q a m.prof

private structure Waits32 (fpu : Fpu) (q : ℝ) (m : Motion (cnc3axis32.kit32 fpu)) (a : Piece) : Prop extends Base fpu q m a where
  still : Profile32.v m.prof (num 0) = num 0

private structure Ready32 (fpu : Fpu) (q : ℝ) (m : Motion (cnc3axis32.kit32 fpu)) (a : Piece) : Prop where
  ok : a.Ok q
  type : Path32.type m.traj = a.r.type
  traj : Path32.trajectory m.traj = .ofReq a.r.trajectory
  plan : ∃ p, Limits q a p ∧ m.prof = p.plan (num (rnd a.L)) ⟨fin q⟩ (num cnc3axis32.minLengthSProfile) .maximizeSpeed

private theorem Limits.between {a : Piece} {p : Profile32} {q : ℝ} (h : Limits q a p) :
    ∃ v A, Between p ⟨fin q⟩ (num cnc3axis32.minLengthSProfile) (rnd a.L) v A A 600 ∧ Moderate (rnd a.L) v A A 600 ∧ 1999 / 10 ≤ A ∧
      999 / 1000 * a.g ≤ v ∧
      ((LineRequest a.r a.x a.d a.L ∧ Speed a.d a.L v ∧ A = acc a.d a.L) ∨ ∃ C, ArcRequest a.r C a.x a.d a.L ∧ Arc32.Speed a.L v ∧ A = 200) := by
  obtain ⟨V, A, hk, hr, hm⟩ := h.path
  rcases hk with ⟨hl, hg, rfl, rfl⟩ | ⟨C, g, ha, hg, e, rfl, rfl⟩
  · have hs := hl.toStraight32
    obtain ⟨v, hv, hsp, hgv⟩ := asked_speed hs hg
    refine ⟨v, _, ⟨hr, ?_, 0, rfl, rnd_nonneg hs.L_pos.le⟩, hs.moderate hsp, hs.acc_bounds.1, hgv, .inl ⟨hl, hsp, rfl⟩⟩
    rw [hm, h.vFeed, ← hv]
  · have hs := ha.toArc32
    obtain ⟨v, hv, hsp, hgv⟩ := arc_speed hs hg
    refine ⟨v, _, ⟨hr, ?_, 0, rfl, rnd_nonneg hs.L_pos.le⟩, hs.moderate hsp, by norm_num, by rw [e]; exact hgv, .inr ⟨C, ha, hsp, rfl⟩⟩
    rw [hm, h.vFeed, ← hv]

private theorem Resting.unique {p : Profile32} {A B : ℝ} (h1 : p.Resting A A 600) (h2 : p.Resting B B 600) : A = B := by
  have := h1.aMax.symm.trans h2.aMax
  exact Num.fin.inj (congrArg Single.val this)

private theorem Limits.plan {a : Piece} {p : Profile32} {q : ℝ} (h : Limits q a p) :
    Limits q a (p.plan (num (rnd a.L)) ⟨fin q⟩ (num cnc3axis32.minLengthSProfile) .maximizeSpeed) := by
  obtain ⟨v, A', hb, hm, -⟩ := h.between
  obtain ⟨V, A, hk, hr, hV⟩ := h.path
  have e := Resting.unique hr hb.rest
  subst e
  obtain ⟨h1, h2, h3⟩ := Profile32.plan_keeps hm hb
  exact ⟨⟨V, A, hk, h1, by rw [h2, hV]⟩, by rw [h3, h.vFeed]⟩

private theorem Limits.start {a : Piece} {p : Profile32} {q : ℝ} (h : Limits q a p) : p.left.vStart = num 0 := by
  obtain ⟨_, _, _, hr, _⟩ := h.path; exact hr.start

private theorem Limits.end_ {a : Piece} {p : Profile32} {q : ℝ} (h : Limits q a p) : p.right.vEnd = num 0 := by
  obtain ⟨_, _, _, hr, _⟩ := h.path; exact hr.end_

private theorem moves {q : ℝ} {a : Piece} (h : a.Ok q) : a.r.type.moves = true := h.facts.2.2.1

private theorem length_eq {q : ℝ} {a : Piece} (h : a.Ok q) : (Trajectory32.ofReq a.r.trajectory).length = num (rnd a.L) := by
  show ofNum a.r.trajectory.length = _
  rw [h.facts.2.2.2.1]; rfl

private theorem Base.optimize {fpu : Fpu} {q : ℝ} {m : Motion (cnc3axis32.kit32 fpu)} {a : Piece} {o : Overrides} {p : Profile32}
    (h : Base fpu q m a) (ho : o.feedOverride = fin q) (hp : Limits q a p) :
    Ready32 fpu q { m with prof := MotionItem32.optimize cnc3axis32 o .maximizeSpeed m.traj p } a := by
  refine ⟨h.ok, h.type, h.traj, p, hp, ?_⟩
  show MotionItem32.optimize cnc3axis32 o .maximizeSpeed m.traj p = _
  unfold MotionItem32.optimize
  rw [h.type, if_pos (moves h.ok), h.traj, length_eq h.ok, ho]

private theorem end_rest {p : Profile32} (h : p.right.vEnd = num 0) :
    ({ p with right := { p.right with vEnd := num 0 } } : Profile32) = p := by rw [← h]

private theorem start_rest {p : Profile32} (h : p.left.vStart = num 0) :
    ({ p with left := { p.left with vStart := num 0 } } : Profile32) = p := by rw [← h]

private theorem plans {fpu : Fpu} {q : ℝ} {o : Overrides} (ho : o.feedOverride = fin q) :
    Plans (K := cnc3axis32.kit32 fpu) (Base fpu q) (Waits32 fpu q) (Ready32 fpu q) o (num 0) := by
  have only : ∀ (m : Motion (cnc3axis32.kit32 fpu)) (a : Piece), Waits32 fpu q m a →
      Ready32 fpu q { m with prof := MotionItem32.optimizeAt cnc3axis32 o .maximizeSpeed (num 0) m.traj m.prof } a := by
    intro m a h
    obtain ⟨V, A, hk, hr0, hV⟩ := h.limits.path
    obtain ⟨p, hp, hr, h1, h2⟩ := MotionItem32.optimizeAt_start (M := cnc3axis32) (o := o) (st := .maximizeSpeed) (x := m.traj)
      (p := m.prof) ⟨hr0, h.still⟩ (by rw [h.type]; exact moves h.ok)
    refine ⟨h.ok, h.type, h.traj, p, ⟨⟨V, A, hk, hr, by rw [h1, hV]⟩, by rw [h2, h.limits.vFeed]⟩, ?_⟩
    refine hp.trans ?_
    rw [h.traj, length_eq h.ok, ho]
  have ready : ∀ (m : Motion (cnc3axis32.kit32 fpu)) (a : Piece), Ready32 fpu q m a → Base fpu q m a := by
    intro m a h
    obtain ⟨p, hp, e⟩ := h.plan
    exact ⟨h.ok, h.type, h.traj, by rw [e]; exact hp.plan⟩
  refine ⟨fun m a h => h.toBase, ready, ?_, ?_, ?_, only⟩
  · intro m a h
    exact h.optimize ho (by
      show Limits q a ({ (m.prof : Profile32) with right := { (m.prof : Profile32).right with vEnd := num 0 } } : Profile32)
      rw [end_rest h.limits.end_]; exact h.limits)
  · intro m a h
    exact h.optimize ho (by
      show Limits q a ({ (m.prof : Profile32) with left := { (m.prof : Profile32).left with vStart := num 0 } } : Profile32)
      rw [start_rest h.limits.start]; exact h.limits)
  · intro m a h
    have e : (cnc3axis32.kit32 fpu).endAtRest m.prof = m.prof := end_rest h.limits.end_
    rw [e]
    exact h.toBase.optimize ho (ready _ _ (only m a h)).limits

/-- A motion that was just appended. -/
private theorem set_cell {fpu : Fpu} {q : ℝ} {a : Piece} {o : Overrides} (ho : o.feedOverride = fin q) (ha : a.Ok q) (X : Path32)
    (p : Profile32) :
    Waits32 fpu q ⟨some a.r, MotionItem32.setPath X a.r, MotionItem32.setProfile cnc3axis32 X p a.r o .minimizeSpeed⟩ a ∧
    Ready32 fpu q ⟨some a.r, MotionItem32.setPath X a.r, MotionItem32.setProfile cnc3axis32 X p a.r o .maximizeSpeed⟩ a := by
  have htr : (MotionItem32.setPath X a.r).trajectory = .ofReq a.r.trajectory := by
    have := moves ha
    unfold MotionItem32.setPath
    cases h : a.r.type <;> simp only [h] <;> (rw [h] at this; cases this)
  have hty : (MotionItem32.setPath X a.r).type = a.r.type := rfl
  have hlen := length_eq ha
  have hset : ∀ st, MotionItem32.setProfile cnc3axis32 X p a.r o st =
      ((p.limit cnc3axis32 (.ofReq a.r.trajectory)).setSpeed (ofNum a.r.vFeed)).plan (num (rnd a.L)) ⟨fin q⟩
        (num cnc3axis32.minLengthSProfile) st := by
    intro st
    have := moves ha
    unfold MotionItem32.setProfile
    cases h : a.r.type <;> (try (rw [h] at this; cases this; done)) <;>
      simp only [MotionItem32.optimize, hty, htr, hlen, ho, h] <;> rfl
  have hl : Limits q a ((p.limit cnc3axis32 (.ofReq a.r.trajectory)).setSpeed (ofNum a.r.vFeed)) := by
    refine ⟨?_, rfl⟩
    rcases ha.path with ⟨hl, hg⟩ | ⟨C, g, hc, hg, e⟩
    · refine ⟨_, _, .inl ⟨hl, hg, rfl, rfl⟩, ?_⟩
      have hs := hl.toStraight32
      have hdir : ∀ i, i < 3 → (Trajectory32.ofReq a.r.trajectory).directionUnitVector i = num (dir a.d a.L i) := by
        intro i hi
        show (if i = a.r.trajectory.arcAxis0 ∨ i = a.r.trajectory.arcAxis1 then num 1 else
          ofNum (a.r.trajectory.delta i / a.r.trajectory.length)) = _
        have h0 := hl.axes.1
        have h1 := hl.axes.2
        rw [if_neg (by omega), hl.by_ i hi, hl.length, fin_div hs.L_pos.ne']; rfl
      have hlim := Profile32.limit_eq (M := cnc3axis32) (t := .ofReq a.r.trajectory) (p := p) (v := 30) (a := 200) (u := dir a.d a.L)
        (by norm_num) (by norm_num) hl.axes.1 hl.axes.2 hdir (fun _ _ => rfl) (fun _ _ => rfl) (fun _ _ => rfl)
      have hU : most (dir a.d a.L) 3 ≠ 0 := hs.top_pos.ne'
      rw [hlim]
      refine ⟨⟨rfl, rfl, rfl, rfl, ?_, ?_, rfl⟩, ?_⟩
      · show lim32 200 (most (dir a.d a.L) 3) = _
        unfold lim32; rw [if_neg hU]; rfl
      · show -lim32 200 (most (dir a.d a.L) 3) = _
        unfold lim32; rw [if_neg hU]; rfl
      · show lim32 30 (most (dir a.d a.L) 3) = _
        unfold lim32; rw [if_neg hU]; rfl
    · obtain ⟨ht, hj⟩ := hc.limit_eq p
      exact ⟨_, _, .inr ⟨C, g, hc, hg, e, rfl, rfl⟩, ⟨rfl, rfl, rfl, rfl, ht.aMax, ht.dMax, hj⟩, ht.vMax⟩
  refine ⟨?_, ha, rfl, htr, _, hl, hset _⟩
  obtain ⟨v, A, hb, hmod, hacc, -⟩ := hl.between
  have hQ := hmod.Q_near.pos (by have := hmod.product; linarith) (by norm_num)
  have hq2 : 0 < rnd (rnd (600 * rnd (A / 600)) * rnd (A / 600)) := by
    have h2 : rnd ((2 : ℝ) ^ (-2 : ℤ)) = 2 ^ (-2 : ℤ) := rnd_pow (by norm_num)
    have h4 : rnd ((2 : ℝ) ^ (-4 : ℤ)) = 2 ^ (-4 : ℤ) := rnd_pow (by norm_num)
    have e2 : (2 : ℝ) ^ (-2 : ℤ) = 1 / 4 := by norm_num [zpow_neg]
    have e4 : (2 : ℝ) ^ (-4 : ℤ) = 1 / 16 := by norm_num [zpow_neg]
    rw [e2] at h2
    rw [e4] at h4
    have b1 : 1 / 4 ≤ rnd (A / 600) := by
      rw [← h2]; exact rnd_mono (by linarith)
    have b2 : 1 / 4 ≤ rnd (600 * rnd (A / 600)) := by
      rw [← h2]; exact rnd_mono (by linarith)
    have b3 : 1 / 16 ≤ rnd (rnd (600 * rnd (A / 600)) * rnd (A / 600)) := by
      rw [← h4]; exact rnd_mono (by nlinarith)
    linarith
  obtain ⟨V, A', hk, hr, hV⟩ := hl.path
  have e := Resting.unique hr hb.rest
  subst e
  obtain ⟨hw, hvm, hvf⟩ := Profile32.plan_rest (f := ⟨fin q⟩) (l := cnc3axis32.minLengthSProfile) hb.rest
    (rnd_rnd a.L) hmod.L_pos hmod.a_pos (by norm_num) hq2 hQ
  rw [← hset] at hw hvm hvf
  exact ⟨⟨ha, rfl, htr, ⟨⟨V, A', hk, hw.toResting, by rw [hvm, hV]⟩, by rw [hvf, hl.vFeed]⟩⟩, hw.still⟩

/-- The first motion of the queue: what is known of its course. `P` are the computed positions of the axes (in mm) over time. -/
private structure Course (fpu : Fpu) (m : Motion (cnc3axis32.kit32 fpu)) (a : Piece) (D : ℝ) (P : Nat → ℝ → ℝ) : Prop where
  traj : Path32.trajectory m.traj = .ofReq a.r.trajectory
  duration : Profile32.duration m.prof = num D
  tStop : Profile32.tStop m.prof = ⟨posInf⟩
  position : ∀ i, i < 3 → ∀ t, rnd t = t →
    (Trajectory32.ofReq a.r.trajectory).position fpu i (Profile32.s m.prof (num t)) = num (P i t)
  bound : ∀ i, i < 3 → ∀ t, 0 ≤ t → t ≤ D → |P i t * 200| ≤ 60001
  still : ∀ i, i < 3 → (Trajectory32.ofReq a.r.trajectory).isMoving i = false → a.d i = 0 ∧ ∀ s, ExecSpec.place a.r i s = a.x i
  zero : ∀ i, i < 3 → |P i 0 * 200 - 200 * a.x i| ≤ 44 / 100
  start : ∀ i, i < 3 → ∀ t, rnd t = t → 0 ≤ t → t ≤ D → t ≤ 61 / 10 ^ 6 → |P i t * 200 - 200 * a.x i| ≤ 557 / 1000
  step : ∀ i, i < 3 → ∀ o k, rnd o = o → 0 ≤ o → instant fpu width32 o (k + 1) ≤ D →
    |P i (instant fpu width32 o (k + 1)) * 200 - P i (instant fpu width32 o k) * 200| ≤ 1
  end_ : ∀ i, i < 3 → ∀ o k, rnd o = o → 0 ≤ o → instant fpu width32 o k ≤ D → D < instant fpu width32 o (k + 1) →
    |P i (instant fpu width32 o k) * 200 - 200 * (a.x i + a.d i)| ≤ 44 / 100
  path : ∀ t, 0 ≤ t → t ≤ D → ∃ s, 0 ≤ s ∧ s ≤ a.L ∧ ∀ i, i < 3 → |P i t * 200 - 200 * ExecSpec.place a.r i s| ≤ 44 / 100
  ge : 1 / 10000 ≤ D
  le : D ≤ 90
  count : 60010 * D + 2 ≤ 61500 * (a.L / a.g) + 150000

private theorem Course.pos {fpu : Fpu} {m : Motion (cnc3axis32.kit32 fpu)} {a : Piece} {D : ℝ} {P : Nat → ℝ → ℝ}
    (h : Course fpu m a D P) : 0 < D := lt_of_lt_of_le (by norm_num) h.ge

private theorem durations {L g v D : ℝ} (hL0 : 0 < L) (hg0 : 0 < g) (hgv : 999 / 1000 * g ≤ v) (hL : rnd L ≤ (1 + eps) * L)
    (hb : L ≤ 85 * g) (hD : D ≤ 102 / 100 * (rnd L / v) + 242 / 100) : D ≤ 90 ∧ 60010 * D + 2 ≤ 61500 * (L / g) + 150000 := by
  have hb1 : rnd L / v ≤ (1 + eps) * L / (999 / 1000 * g) :=
    div_le_div₀ (by unfold eps; positivity) hL (by positivity) hgv
  have hb2 : (1 + eps) * L / (999 / 1000 * g) = (1 + eps) / (999 / 1000) * (L / g) := by field_simp
  rw [hb2] at hb1
  have hb3 : 0 < L / g := by positivity
  have hb4 : L / g ≤ 85 := by rw [div_le_iff₀ hg0]; exact hb
  unfold eps at hb1
  norm_num at hb1
  constructor <;> linarith

private theorem instant_nonneg (fpu : Fpu) {o : ℝ} (ho : rnd o = o) (ho0 : 0 ≤ o) (k : Nat) : 0 ≤ instant fpu width32 o k := by
  have := instant_mono fpu (o := o) width32_pos.le (Nat.zero_le k)
  rw [instant_zero fpu ho] at this
  linarith

/-- The course of a straight motion. -/
private theorem line_course {fpu : Fpu} {m : Motion (cnc3axis32.kit32 fpu)} {a : Piece} {v D : ℝ} {S : ℝ → ℝ}
    (hr : LineRequest a.r a.x a.d a.L) (hv : Speed a.d a.L v) (hl : Law a.d a.L v D S) (hlong : 1 / 128 ≤ a.L)
    (hb : a.L ≤ 85 * a.g) (hg0 : 0 < a.g) (hgv : 999 / 1000 * a.g ≤ v)
    (h1 : Path32.trajectory m.traj = .ofReq a.r.trajectory) (h2 : Profile32.duration m.prof = num D)
    (h3 : Profile32.tStop m.prof = ⟨posInf⟩) (h4 : ∀ t, rnd t = t → Profile32.s m.prof (num t) = num (S t)) :
    Course fpu m a D fun i t => spot fpu a.x a.d a.L i (S t) := by
  have hs := hr.toStraight32
  have hv0 : 0 < v := lt_of_lt_of_le (by norm_num) hv.ge
  obtain ⟨k1, k2⟩ := durations hs.L_pos hg0 hgv hs.Lf.2 hb (hl.duration_le hs hv)
  have zero : ∀ i, i < 3 → |spot fpu a.x a.d a.L i (S 0) * 200 - 200 * a.x i| ≤ 36 / 10000 := by
    intro i hi
    have e0 : spot fpu a.x a.d a.L i (S 0) = rnd (a.x i) := by
      rw [hl.zero]
      unfold spot mulAddR
      split <;> simp [rnd_rnd, rnd_zero]
    have := abs_le.1 (hs.start_near hi)
    rw [e0, abs_le]
    norm_num at this ⊢
    constructor <;> linarith
  refine ⟨h1, h2, h3, fun i hi t ht => ?_, fun i hi t t0 t1 => ?_, fun i hi hm => ?_, fun i hi => (zero i hi).trans (by norm_num),
    fun i hi t ht t0 t1 t2 => ?_, fun i hi o k ho ho0 hD => ?_, fun i hi o k ho ho0 hD hD' => ?_, fun t t0 t1 => ?_,
    hl.duration_ge hs hv hlong, k1, k2⟩
  · rw [h4 t ht]; exact position_eq hr hi fpu _
  · obtain ⟨s, s0, s1, h⟩ := hl.on_line hs hv t0 t1
    have h := h fpu i hi
    have hline : |a.x i + a.d i * (s / a.L)| ≤ 300 := by
      have a' := hs.start i hi
      have b := hs.stop i hi
      have hL := hs.L_pos
      have q0 : 0 ≤ s / a.L := by positivity
      have q1 : s / a.L ≤ 1 := by rw [div_le_one hL]; exact s1
      rw [show a.x i + a.d i * (s / a.L) = (1 - s / a.L) * a.x i + (s / a.L) * (a.x i + a.d i) by ring]
      rw [abs_le] at a' b ⊢
      constructor <;> nlinarith
    have := abs_le.1 h
    have := abs_le.1 hline
    rw [abs_le]
    norm_num at *
    constructor <;> linarith
  · obtain ⟨z0, zp, zn⟩ := dir_zero hr hi
    have hd : a.d i = 0 := by
      by_contra hd
      have : dir a.d a.L i ≠ 0 := by
        rcases lt_or_gt_of_ne hd with h | h
        · exact (zn h).ne
        · exact (zp h).ne'
      rw [(isMoving_iff hr hi).2 this] at hm
      cases hm
    exact ⟨hd, fun s => by rw [hr.place_eq hi, hd]; simp⟩
  · have h3 := hl.rate (fpu := fpu) hs hv hi le_rfl t0 t1
    rw [sub_zero] at h3
    have h4 := abs_le.1 (zero i hi)
    have hdv : |dir a.d a.L i| * v ≤ 30001 / 1000 :=
      (mul_le_mul_of_nonneg_right (dir_top hi) hv0.le).trans (hs.speed_top hv)
    have h5 : |dir a.d a.L i| * (v * t) ≤ 30001 / 1000 * (61 / 10 ^ 6) := by
      rw [← mul_assoc]; exact mul_le_mul hdv t2 t0 (by norm_num)
    have h3 := abs_le.1 h3
    rw [abs_le]
    norm_num at *
    constructor <;> linarith
  · have hk := instant_mono fpu (o := o) width32_pos.le (Nat.le_succ k)
    have h2 := hl.rate (fpu := fpu) hs hv hi (instant_nonneg fpu ho ho0 k) hk hD
    have h3 := hl.hop_from (fpu := fpu) (k := k) hs hv hi ho ho0 (hk.trans hD)
    have := abs_le.1 h2
    rw [abs_le]
    norm_num at *
    constructor <;> linarith
  · have h3 := hl.at_end hs hv (instant_nonneg fpu ho ho0 k) hD (fpu := fpu) hi
    have h4 := hl.hop_from (fpu := fpu) (k := k) hs hv hi ho ho0 hD
    have h5 : |dir a.d a.L i| * (v * (D - instant fpu width32 o k)) ≤ 7 / 10000 := by
      refine le_trans ?_ h4
      exact mul_le_mul_of_nonneg_left (mul_le_mul_of_nonneg_left (by linarith) hv0.le) (abs_nonneg _)
    have h6 := abs_le.1 (h3.trans (add_le_add_left h5 _))
    rw [abs_le]
    norm_num at h6 ⊢
    constructor <;> linarith
  · obtain ⟨s, s0, s1, h⟩ := hl.on_line hs hv t0 t1
    refine ⟨s, s0, s1, fun i hi => ?_⟩
    have := abs_le.1 (h fpu i hi)
    rw [hr.place_eq hi, abs_le]
    norm_num at *
    constructor <;> linarith

/-- The course of a motion along an arc. -/
private theorem arc_course {fpu : Fpu} {m : Motion (cnc3axis32.kit32 fpu)} {a : Piece} {A : Curve} {v D : ℝ} {S : ℝ → ℝ}
    (hr : ArcRequest a.r A a.x a.d a.L) (hv : Arc32.Speed a.L v) (hl : Arc32.Law a.L v D S) (hlong : 1 / 128 ≤ a.L)
    (hb : a.L ≤ 85 * a.g) (hg0 : 0 < a.g) (hgv : 999 / 1000 * a.g ≤ v)
    (h1 : Path32.trajectory m.traj = .ofReq a.r.trajectory) (h2 : Profile32.duration m.prof = num D)
    (h3 : Profile32.tStop m.prof = ⟨posInf⟩) (h4 : ∀ t, rnd t = t → Profile32.s m.prof (num t) = num (S t)) :
    Course fpu m a D fun i t => Arc32.spot fpu A a.x a.d a.L i (S t) := by
  have hs := hr.toArc32
  have hv0 : 0 < v := lt_of_lt_of_le (by norm_num) hv.ge
  obtain ⟨k1, k2⟩ := durations hs.L_pos hg0 hgv hs.Lf.2 hb (hl.duration_le hv)
  have start : ∀ i, i < 3 → ∀ t, rnd t = t → 0 ≤ t → t ≤ 61 / 10 ^ 6 →
      |Arc32.spot fpu A a.x a.d a.L i (S t) * 200 - 200 * a.x i| ≤ 6 / 100 := by
    intro i hi t ht t0 t2
    have := abs_le.1 (hl.at_start (fpu := fpu) hs hi ht t0 t2)
    rw [← hr.place_eq hi, hr.place_zero hi] at this
    rw [abs_le]
    norm_num at *
    constructor <;> linarith
  refine ⟨h1, h2, h3, fun i hi t ht => ?_, fun i hi t t0 t1 => ?_, fun i hi hm => hr.still hi hm,
    fun i hi => (start i hi 0 rnd_zero le_rfl (by norm_num)).trans (by norm_num),
    fun i hi t ht t0 t1 t2 => (start i hi t ht t0 t2).trans (by norm_num), fun i hi o k ho ho0 hD => ?_,
    fun i hi o k ho ho0 hD hD' => ?_, fun t t0 t1 => ?_,
    hl.duration_ge hs hv hlong, k1, k2⟩
  · rw [h4 t ht]; exact hr.position_eq hi fpu _
  · obtain ⟨s, s0, s1, h⟩ := hl.on_path hs hv t0 t1
    have := abs_le.1 (h fpu i hi)
    have := abs_le.1 (hs.point_inside hi s0 s1)
    rw [abs_le]
    norm_num at *
    constructor <;> linarith
  · have hk := instant_mono fpu (o := o) width32_pos.le (Nat.le_succ k)
    have h2 := hl.rate (fpu := fpu) hs hv hi (instant_nonneg fpu ho ho0 k) hk hD
    have h3 := hl.hop (fpu := fpu) (k := k) hs hv ho ho0 (hk.trans hD)
    have := abs_le.1 h2
    rw [abs_le]
    norm_num at *
    constructor <;> linarith
  · have h3 := hl.at_end (fpu := fpu) hs hv hi (instant_nonneg fpu ho ho0 k) hD
    rw [← hr.place_eq hi, hr.place_end hi] at h3
    have h4 := hl.hop (fpu := fpu) (k := k) hs hv ho ho0 hD
    have h5 : v * (D - instant fpu width32 o k) ≤ 742 / 10 ^ 6 := by
      refine le_trans ?_ h4
      exact mul_le_mul_of_nonneg_left (by linarith) hv0.le
    have h6 := abs_le.1 (h3.trans (add_le_add_left h5 _))
    rw [abs_le]
    norm_num at h6 ⊢
    constructor <;> linarith
  · obtain ⟨s, s0, s1, h⟩ := hl.on_path hs hv t0 t1
    refine ⟨s, s0, s1, fun i hi => ?_⟩
    have := abs_le.1 (h fpu i hi)
    rw [hr.place_eq hi, abs_le]
    norm_num at *
    constructor <;> linarith

private theorem Ready32.course {fpu : Fpu} {q : ℝ} {m : Motion (cnc3axis32.kit32 fpu)} {a : Piece} (h : Ready32 fpu q m a) :
    ∃ D P, Course fpu m a D P := by
  obtain ⟨p, hp, e⟩ := h.plan
  obtain ⟨v, A, hb, hm, -, hgv, hk⟩ := hp.between
  have hg0 := h.ok.facts.2.1
  rcases hk with ⟨hr, hv, rfl⟩ | ⟨C, hr, hv, rfl⟩
  · obtain ⟨D, S, h1, h2, h3, h4, h5, h6, h7, h8⟩ := path_single hm hb
    rw [← e] at h1 h4 h5
    exact ⟨D, _, line_course hr hv ⟨h2, h3, h6, h7, h8⟩ h.ok.long h.ok.brief hg0 hgv h.traj h1 h4 h5⟩
  · obtain ⟨D, S, h1, h4, h5, hl⟩ := hr.toArc32.law hv hb
    rw [← e] at h1 h4 h5
    exact ⟨D, _, arc_course hr hv hl h.ok.long h.ok.brief hg0 hgv h.traj h1 h4 h5⟩

/-! ### The axes -/

/-- A sampled axis comes near the computed position. -/
private theorem axis_step {fpu : Fpu} {c c' : MotionCtrl (cnc3axis32.kit32 fpu)} {t} (ht : c.tick = some (c', t)) {i : Nat} {p : ℝ}
    (htp : TakesPart32 c' t i) (hp : commanded32 c' i = num p) (hb : |p * 200| ≤ 60001)
    (hm : |p * 200 - c.machinePosition i| ≤ 15572 / 10000) : |p * 200 - c'.machinePosition i| ≤ 5572 / 10000 := by
  have hh := hyst
  have hsl := slack_le
  have hm' := abs_le.1 hm
  have hb' := abs_le.1 hb
  obtain ⟨a, -, b⟩ := one_step_per_tick_single ht i
  have hmR : |(c.machinePosition i : ℝ)| ≤ 2 ^ 24 := by rw [abs_le]; norm_num; constructor <;> linarith
  have hmZ : |c.machinePosition i| ≤ 2 ^ 24 := by exact_mod_cast hmR
  obtain ⟨f, g, n⟩ := b p 60001 (by linarith [hh.1]) (by linarith [hh.2]) hp hb (by norm_num) (by norm_num) hmZ htp
  have e : p * cnc3axis32.stepsPerMm i = p * 200 := rfl
  rw [e] at f g n
  rw [a, abs_le]
  cases hc : t.cmd i with
  | none =>
    have := abs_le.1 (n hc)
    simp only [stepsOf, add_zero]
    constructor <;> linarith
  | some o =>
    cases o with
    | forward =>
      have := f hc
      simp only [stepsOf]; push_cast
      constructor <;> linarith
    | backward =>
      have := g hc
      simp only [stepsOf]; push_cast
      constructor <;> linarith

/-! ### The queue -/

/-- Calculations that suffice for a motion. -/
noncomputable def Piece.cost (a : Piece) : ℝ := 61500 * (a.L / a.g) + 150000

/-- Stopped, at `x`, with motions waiting. -/
private structure Stands (fpu : Fpu) (q : ℝ) (x : Nat → ℝ) (l : List Piece) (c : MotionCtrl (cnc3axis32.kit32 fpu)) : Prop where
  state : c.state = .stopped
  override : c.overrides.feedOverride = fin q
  queue : Queue (Waits32 fpu q) c.buffer l
  time : c.time = ⟨num 0, num 0, 0, num width32⟩
  chain : Chain x l
  near : ∀ i, i < 3 → |200 * x i - c.machinePosition i| ≤ 1

/-- Where the motors are during a motion: near its start before the first sample, then near the computed position. -/
private def AxisNear (fpu : Fpu) (a : Piece) (P : Nat → ℝ → ℝ) (o : ℝ) (k : Nat) (c : MotionCtrl (cnc3axis32.kit32 fpu)) (i : Nat) : Prop :=
  ((Trajectory32.ofReq a.r.trajectory).isMoving i = false → |200 * a.x i - c.machinePosition i| ≤ 1) ∧
  ((Trajectory32.ofReq a.r.trajectory).isMoving i = true → (k = 0 ∧ o = 0 ∧ |200 * a.x i - c.machinePosition i| ≤ 1) ∨
    |P i (instant fpu width32 o k) * 200 - c.machinePosition i| ≤ 5572 / 10000)

/-- Executing the first of the motions, which started at `x`; at most `B` ticks are left. -/
private structure Runs32 (fpu : Fpu) (q : ℝ) (x : Nat → ℝ) (a : Piece) (l : List Piece) (D : ℝ) (P : Nat → ℝ → ℝ) (o : ℝ) (k : Nat)
    (B : ℝ) (c : MotionCtrl (cnc3axis32.kit32 fpu)) : Prop where
  state : c.state = .running
  override : c.overrides.feedOverride = fin q
  queue : Queue (Ready32 fpu q) c.buffer (a :: l)
  course : Course fpu c.buffer.getHead a D P
  width : c.time.minStepPulseWidth = num width32
  index : c.time.sampleIndex = k
  offset : c.time.sampleZeroOffset = num o
  float : rnd o = o
  nonneg : 0 ≤ o
  within : instant fpu width32 o k ≤ D
  chain : Chain x (a :: l)
  near : ∀ i, i < 3 → AxisNear fpu a P o k c i
  left : ((a :: l).map Piece.cost).sum - k ≤ B

/-- Executing the motions of the queue. -/
private def Going (fpu : Fpu) (q : ℝ) (x : Nat → ℝ) (l : List Piece) (B : ℝ) (c : MotionCtrl (cnc3axis32.kit32 fpu)) : Prop :=
  ∃ a l' D P o k, l = a :: l' ∧ Runs32 fpu q x a l' D P o k B c

/-- The course of the machine. -/
private def Stage (fpu : Fpu) (q : ℝ) (x : Nat → ℝ) (l : List Piece) (B : ℝ) (c : MotionCtrl (cnc3axis32.kit32 fpu)) : Prop :=
  Stands fpu q x l c ∨ Going fpu q x l B c

/-- The motors after a sample. -/
private theorem sampled {fpu : Fpu} {q : ℝ} {a : Piece} {l : List Piece} {D T o : ℝ} {k : Nat} {P : Nat → ℝ → ℝ}
    {c c' : MotionCtrl (cnc3axis32.kit32 fpu)} {t} (ht : c.tick = some (c', t)) (hact : t.active ≠ none)
    (hq : Queue (Ready32 fpu q) c'.buffer (a :: l)) (hc : Course fpu c'.buffer.getHead a D P) (hT : c'.time.timeInMotion = num T)
    (e : instant fpu width32 o k = T) (hT0 : 0 ≤ T) (hTD : T ≤ D) {i : Nat} (hi : i < 3)
    (h0 : (Trajectory32.ofReq a.r.trajectory).isMoving i = false → |200 * a.x i - c.machinePosition i| ≤ 1)
    (h1 : (Trajectory32.ofReq a.r.trajectory).isMoving i = true → |P i T * 200 - c.machinePosition i| ≤ 15572 / 10000) :
    AxisNear fpu a P o k c' i := by
  refine ⟨fun hd => ?_, fun hd => .inr ?_⟩
  · obtain ⟨m1, m2, -⟩ := one_step_per_tick_single ht i
    rw [m1, m2 fun h => ?_]
    · simpa [stepsOf] using h0 hd
    · have := h.2.2
      rw [hc.traj, hd] at this
      cases this
  · rw [e]
    refine axis_step ht ⟨hact, hi, ?_⟩ ?_ (hc.bound i hi T hT0 hTD) (h1 hd)
    · rw [hc.traj]; exact hd
    · unfold commanded32
      rw [hT, hc.traj]
      exact hc.position i hi T (by rw [← e]; exact instant_float _ _ _ _)

private theorem Runs32.count {fpu : Fpu} {q : ℝ} {x : Nat → ℝ} {a : Piece} {l : List Piece} {D o B : ℝ} {P : Nat → ℝ → ℝ} {k : Nat}
    {c : MotionCtrl (cnc3axis32.kit32 fpu)} (h : Runs32 fpu q x a l D P o k B c) : (k : ℝ) + 2 ≤ a.cost ∧ k + 1 < 2 ^ 32 := by
  have h1 := samples_le fpu h.float h.nonneg h.course.pos h.within
  have h2 := h.course.count
  have h3 := h.course.le
  refine ⟨by unfold Piece.cost; linarith, ?_⟩
  have : ((k + 1 : ℕ) : ℝ) < ((2 ^ 32 : ℕ) : ℝ) := by push_cast; norm_num; linarith
  exact_mod_cast this

private theorem cost_nonneg {q : ℝ} {a : Piece} (h : a.Ok q) : 0 ≤ a.cost := by
  have := h.facts.1
  have := h.facts.2.1
  unfold Piece.cost; positivity

/-- The end of a motion. -/
private theorem Runs32.ends {fpu : Fpu} {q : ℝ} {x : Nat → ℝ} {a : Piece} {l : List Piece} {D o B : ℝ} {P : Nat → ℝ → ℝ} {k : Nat}
    {c : MotionCtrl (cnc3axis32.kit32 fpu)} (h : Runs32 fpu q x a l D P o k B c) (hD : D < instant fpu width32 o (k + 1)) {i : Nat}
    (hi : i < 3) : |200 * (x i + a.d i) - c.machinePosition i| ≤ 1 := by
  obtain ⟨n1, n2⟩ := h.near i hi
  rw [← h.chain.1 i hi]
  cases hm : (Trajectory32.ofReq a.r.trajectory).isMoving i with
  | false => rw [(h.course.still i hi hm).1, add_zero]; exact n1 hm
  | true =>
    rcases n2 hm with ⟨rfl, rfl, -⟩ | h1
    · exfalso
      have a1 := (abs_le.1 (instant_near fpu rnd_zero le_rfl (0 + 1))).2
      have hw := width32_near.2
      have hge := h.course.ge
      push_cast at a1
      unfold eps at *
      norm_num at *
      linarith
    · have h2 := abs_le.1 (h.course.end_ i hi o k h.float h.nonneg h.within hD)
      have h1 := abs_le.1 h1
      rw [abs_le]
      constructor <;> linarith

/-- One tick while motions are executed. -/
private theorem Runs32.tick {fpu : Fpu} {q : ℝ} {x : Nat → ℝ} {a : Piece} {l : List Piece} {D o B : ℝ} {P : Nat → ℝ → ℝ} {k : Nat}
    {c c' : MotionCtrl (cnc3axis32.kit32 fpu)} {t} (h : Runs32 fpu q x a l D P o k B c) (ht : c.tick = some (c', t)) :
    Going fpu q x (a :: l) (B - 1) c' ∨ Going fpu q (fun i => x i + a.d i) l (B - 1) c' ∨
      l = [] ∧ Stands fpu q (fun i => x i + a.d i) l c' := by
  obtain ⟨hcount, hk32⟩ := h.count
  have hmono := instant_mono fpu (o := o) width32_pos.le
  obtain ⟨t1, t2, t3⟩ := tick32 h.queue h.state h.width h.index h.offset hk32 h.course.duration h.course.tStop ht
  have hpos : 0 ≤ instant fpu width32 o (k + 1) := by
    have := hmono (Nat.zero_le (k + 1))
    rw [instant_zero fpu h.float] at this
    exact h.nonneg.trans this
  rcases le_or_gt (instant fpu width32 o (k + 1)) D with hle | hlt
  · left
    obtain ⟨e1, e2, e3, e4, e5⟩ := t1 hle
    refine ⟨a, l, D, P, o, k + 1, rfl, ⟨e2, by rw [e3]; exact h.override, by rw [e1]; exact h.queue, by rw [e1]; exact h.course,
      by rw [e4], by rw [e4], by rw [e4], h.float, h.nonneg, hle, h.chain, fun i hi => ?_, ?_⟩⟩
    · obtain ⟨n1, n2⟩ := h.near i hi
      refine sampled ht e5 (by rw [e1]; exact h.queue) (by rw [e1]; exact h.course) (by rw [e4]) rfl hpos hle hi n1 fun hd => ?_
      rcases n2 hd with ⟨rfl, rfl, h2⟩ | h2
      · have a1 := (abs_le.1 (instant_near fpu rnd_zero le_rfl (0 + 1))).2
        have hw := width32_near.2
        have h3 := abs_le.1 (h.course.start i hi _ (instant_float fpu width32 0 (0 + 1)) hpos hle (by
          push_cast at a1
          unfold eps at *
          norm_num at *
          linarith))
        have h2 := abs_le.1 h2
        rw [abs_le]
        constructor <;> linarith
      · have h1 := abs_le.1 (h.course.step i hi o k h.float h.nonneg hle)
        have h2 := abs_le.1 h2
        rw [abs_le]
        constructor <;> linarith
    · have := h.left
      push_cast
      linarith
  · right
    have hend := fun i (hi : i < 3) => h.ends hlt hi
    cases l with
    | nil =>
      obtain ⟨i1, i2, i3⟩ := t2 hlt rfl
      refine .inr ⟨rfl, i1.state, by rw [i2]; exact h.override, ⟨i1.head, i1.level, by simp, fun k hk => absurd hk (by simp)⟩, ?_, trivial, ?_⟩
      · rcases hct : c'.time with ⟨a1, a2, a3, a4⟩
        have j1 := i1.now; have j2 := i1.offset; have j3 := i1.index; have j4 := i1.width
        rw [hct] at j1 j2 j3 j4
        simp only at j1 j2 j3 j4
        rw [j1, j2, j3, j4]
      · intro i hi
        rw [i3]; exact hend i hi
    | cons b l' =>
      have hqp := h.queue.pop
      have hrb := hqp.getHead
      obtain ⟨D', P', hc'⟩ := hrb.course
      have hstep := instant_step fpu h.float h.nonneg h.within
      have hD90 := h.course.le
      have hwithin := h.within
      have ho0 : 0 ≤ rnd (instant fpu width32 o (k + 1) - D) := rnd_nonneg (by linarith)
      have ho1 : rnd (instant fpu width32 o (k + 1) - D) ≤ 61 / 10 ^ 6 := by
        have h1 := (abs_le.1 (rnd_err (instant fpu width32 o (k + 1) - D))).2
        rw [abs_of_nonneg (by linarith)] at h1
        unfold eps tiny at h1
        norm_num at *
        linarith
      have ho2 : rnd (instant fpu width32 o (k + 1) - D) ≤ D' := by have := hc'.ge; norm_num at ho1; linarith
      obtain ⟨e1, e2, e3, e4, e5⟩ := t3 D' hlt (by simp) hc'.duration ho2
      refine .inl ⟨b, l', D', P', rnd (instant fpu width32 o (k + 1) - D), 0, rfl, ⟨e2, by rw [e3]; exact h.override,
        by rw [e1]; exact hqp, by rw [e1]; exact hc', by rw [e4], by rw [e4], by rw [e4], rnd_rnd _, ho0,
        by rw [instant_zero fpu (rnd_rnd _)]; exact ho2, h.chain.2, fun i hi => ?_, ?_⟩⟩
      · have hx : b.x i = x i + a.d i := h.chain.2.1 i hi
        have hn := hend i hi
        rw [← hx] at hn
        refine sampled ht e5 (by rw [e1]; exact hqp) (by rw [e1]; exact hc') (by rw [e4]) (instant_zero fpu (rnd_rnd _)) ho0 ho2 hi
          (fun _ => hn) fun hd => ?_
        have h1 := abs_le.1 (hc'.start i hi _ (rnd_rnd _) ho0 ho2 ho1)
        have h2 := abs_le.1 hn
        rw [abs_le]
        constructor <;> linarith
      · have h1 := h.left
        rw [List.map_cons, List.sum_cons] at h1
        push_cast
        linarith

private theorem Stands.tick {fpu : Fpu} {q : ℝ} {x : Nat → ℝ} {l : List Piece} {c c' : MotionCtrl (cnc3axis32.kit32 fpu)} {t}
    (h : Stands fpu q x l c) (ht : c.tick = some (c', t)) : Stands fpu q x l c' := by
  have hrun : c.isRunning = false := by simp [isRunning, h.state]
  unfold MotionCtrl.tick at ht
  simp only [hrun, Bool.false_eq_true, if_false, Option.some.injEq, Prod.mk.injEq] at ht
  obtain ⟨rfl, rfl⟩ := ht
  exact ⟨h.state, h.override, h.queue, h.time, h.chain, h.near⟩

private theorem Stage.signals {fpu : Fpu} {q : ℝ} {x : Nat → ℝ} {l : List Piece} {B : ℝ} {c : MotionCtrl (cnc3axis32.kit32 fpu)}
    (h : Stage fpu q x l B c) (s : StepSignals) : Stage fpu q x l B (c.withSignals s) := by
  rcases h with h | ⟨a, l', D, P, o, k, rfl, h⟩
  · exact .inl ⟨h.state, h.override, h.queue, h.time, h.chain, h.near⟩
  · exact .inr ⟨a, l', D, P, o, k, rfl, ⟨h.state, h.override, h.queue, h.course, h.width, h.index, h.offset, h.float, h.nonneg, h.within,
      h.chain, h.near, h.left⟩⟩

private theorem Stage.mono {fpu : Fpu} {q : ℝ} {x : Nat → ℝ} {l : List Piece} {B B' : ℝ} {c : MotionCtrl (cnc3axis32.kit32 fpu)}
    (h : Stage fpu q x l B c) (hB : B ≤ B') : Stage fpu q x l B' c := by
  rcases h with h | ⟨a, l', D, P, o, k, rfl, h⟩
  · exact .inl h
  · exact .inr ⟨a, l', D, P, o, k, rfl, { h with left := h.left.trans hB }⟩

private theorem Stage.reset {fpu : Fpu} {q : ℝ} {x : Nat → ℝ} {l : List Piece} {B : ℝ} {c : MotionCtrl (cnc3axis32.kit32 fpu)}
    (h : Stage fpu q x l B c) : Stage fpu q x l (l.map Piece.cost).sum c := by
  rcases h with h | ⟨a, l', D, P, o, k, rfl, h⟩
  · exact .inl h
  · exact .inr ⟨a, l', D, P, o, k, rfl, { h with left := by have : (0 : ℝ) ≤ k := Nat.cast_nonneg k; linarith }⟩

/-- Of the motions `T`, starting at `X`, some are done, the others are in the queue; if `over`, none is waiting. -/
private def Progress (fpu : Fpu) (q : ℝ) (X : Nat → ℝ) (T : List Piece) (over : Prop) (B : ℝ)
    (c : MotionCtrl (cnc3axis32.kit32 fpu)) : Prop :=
  ∃ done todo, T = done ++ todo ∧ Stage fpu q (after X done) todo B c ∧ (over → c.state = .stopped → todo = [])

private theorem Progress.tick {fpu : Fpu} {q : ℝ} {X : Nat → ℝ} {T : List Piece} {over : Prop} {B : ℝ}
    {c c' : MotionCtrl (cnc3axis32.kit32 fpu)} {t} (h : Progress fpu q X T over B c) (ht : c.tick = some (c', t)) :
    Progress fpu q X T over (B - 1) c' := by
  obtain ⟨done, todo, hT, hs, ho⟩ := h
  rcases hs with h | ⟨a, l, D, P, o, k, rfl, h⟩
  · exact ⟨done, todo, hT, .inl (h.tick ht), fun h1 _ => ho h1 h.state⟩
  · rcases h.tick ht with h1 | h1 | ⟨h0, h1⟩
    · refine ⟨done, a :: l, hT, .inr h1, fun _ hst => ?_⟩
      obtain ⟨_, _, _, _, _, _, _, h1⟩ := h1
      rw [h1.state] at hst; cases hst
    · refine ⟨done ++ [a], l, by simp [hT], ?_, fun _ hst => ?_⟩
      · rw [after_append, after_cons, after_nil]; exact .inr h1
      · obtain ⟨_, _, _, _, _, _, _, h1⟩ := h1
        rw [h1.state] at hst; cases hst
    · refine ⟨done ++ [a], l, by simp [hT], ?_, fun _ _ => h0⟩
      rw [after_append, after_cons, after_nil]; exact .inl h1

private theorem Progress.mono {fpu : Fpu} {q : ℝ} {X : Nat → ℝ} {T : List Piece} {over : Prop} {B B' : ℝ}
    {c : MotionCtrl (cnc3axis32.kit32 fpu)} (h : Progress fpu q X T over B c) (hB : B ≤ B') : Progress fpu q X T over B' c := by
  obtain ⟨done, todo, hT, hs, ho⟩ := h
  exact ⟨done, todo, hT, hs.mono hB, ho⟩

private theorem Progress.signals {fpu : Fpu} {q : ℝ} {X : Nat → ℝ} {T : List Piece} {over : Prop} {B : ℝ}
    {c : MotionCtrl (cnc3axis32.kit32 fpu)} (h : Progress fpu q X T over B c) (s : StepSignals) :
    Progress fpu q X T over B (c.withSignals s) := by
  obtain ⟨done, todo, hT, hs, ho⟩ := h
  exact ⟨done, todo, hT, hs.signals s, ho⟩

/-- A calculation takes at least one tick. -/
private theorem Progress.calc {fpu : Fpu} {q : ℝ} {X : Nat → ℝ} {T : List Piece} {over : Prop} {B : ℝ}
    {c c' : MotionCtrl (cnc3axis32.kit32 fpu)} {r} (h : Progress fpu q X T over B c) (hc : c.call .calculate = some (c', r)) :
    Progress fpu q X T over (B - 1) c' := by
  simp only [call, Option.map_eq_some_iff, Prod.exists, Prod.mk.injEq] at hc
  obtain ⟨c₁, e, ts, hc, rfl, -⟩ := hc
  unfold calcNext at hc
  rw [calcLoop] at hc
  split at hc
  · cases hc
  · rename_i c₂ t ht
    have h2 := h.tick ht
    split at hc
    · simp only [Option.some.injEq, Prod.mk.injEq] at hc
      obtain ⟨rfl, -, -⟩ := hc
      exact h2.signals _
    · simp only [Option.map_eq_some_iff, Prod.exists, Prod.mk.injEq] at hc
      obtain ⟨c₃, e', ts', hc, rfl, -, -⟩ := hc
      exact calcLoop_keeps (P := Progress fpu q X T over (B - 1)) (fun _ s h => h.signals s)
        (fun _ _ _ h ht => (h.tick ht).mono (by linarith)) _ h2 hc

private theorem Progress.calcs {fpu : Fpu} {q : ℝ} {X : Nat → ℝ} {T : List Piece} {over : Prop} (n : Nat) : ∀ {B : ℝ}
    {c c' : MotionCtrl (cnc3axis32.kit32 fpu)} {log}, Progress fpu q X T over B c →
    c.run (List.replicate n .calculate) = some (c', log) → Progress fpu q X T over (B - n) c' := by
  induction n with
  | zero =>
    intro B c c' log h hr
    simp only [List.replicate_zero, run, Option.some.injEq, Prod.mk.injEq] at hr
    obtain ⟨rfl, -⟩ := hr
    simpa using h
  | succ n ih =>
    intro B c c' log h hr
    rw [List.replicate_succ, run] at hr
    split at hr
    · cases hr
    · rename_i c₁ r hc
      simp only [Option.map_eq_some_iff, Prod.exists, Prod.mk.injEq] at hr
      obtain ⟨c₂, log₂, hr, rfl, -⟩ := hr
      refine (ih (h.calc hc) hr).mono ?_
      push_cast; linarith

/-- Appending leaves the first motion as it is. -/
private theorem append_head {K : MotionKit} {α : Type} {R : Motion K → α → Prop} {c : MotionCtrl K} {a : α} {l : List α}
    (h : Queue R c.buffer (a :: l)) (hl : (a :: l).length < 32) (r : K.Req) : (c.append r).buffer.getHead = c.buffer.getHead := by
  have hlv := h.level
  have hhd := h.head
  have hnf : (!c.buffer.isFull) = true := by
    simp only [List.length_cons] at hl
    simp [MotionBuffer.isFull, MotionBuffer.length, hlv]; omega
  unfold MotionCtrl.append
  rw [if_pos hnf]
  show (if c.buffer.head = (c.buffer.head + c.buffer.level) % 32 then _ else c.buffer.cells c.buffer.head) = c.buffer.cells c.buffer.head
  rw [if_neg (by rw [hlv]; simp only [List.length_cons] at *; omega)]

private theorem chain_snoc {x : Nat → ℝ} {l : List Piece} {a : Piece} (h : Chain x l) (ha : Chain (after x l) [a]) : Chain x (l ++ [a]) :=
  (chain_append l).2 ⟨h, ha⟩

private theorem Stage.append {fpu : Fpu} {q : ℝ} {x : Nat → ℝ} {l : List Piece} {B : ℝ} {c : MotionCtrl (cnc3axis32.kit32 fpu)}
    {a : Piece} (h : Stage fpu q x l B c) (hl : c.buffer.level < 32) (ha : a.Ok q) (hch : Chain (after x l) [a]) :
    Stage fpu q x (l ++ [a]) (B + a.cost) (c.append a.r) := by
  rcases h with h | ⟨b, l', D, P, o, k, rfl, h⟩
  · have hst : c.strategy = .minimizeSpeed := by simp [strategy, h.state]
    obtain ⟨h1, h2, h3, h4, h5⟩ := h.queue.push (r := a.r) (a := a) (by rw [← h.queue.level]; exact hl)
      (fun m => by rw [hst]; exact (set_cell h.override ha _ _).1)
    exact .inl ⟨by rw [h3]; exact h.state, by rw [h4]; exact h.override, h1, by rw [h2]; exact h.time, chain_snoc h.chain hch,
      by rw [h5]; exact h.near⟩
  · have hst : c.strategy = .maximizeSpeed := by simp [strategy, h.state]
    have hl' : (b :: l').length < 32 := by rw [← h.queue.level]; exact hl
    obtain ⟨h1, h2, h3, h4, h5⟩ := h.queue.push (r := a.r) (a := a) hl'
      (fun m => by rw [hst]; exact (set_cell h.override ha _ _).2)
    refine .inr ⟨b, l' ++ [a], D, P, o, k, rfl, ⟨by rw [h3]; exact h.state, by rw [h4]; exact h.override, h1,
      (congrArg (fun m => Course fpu m b D P) (append_head h.queue hl' a.r)).mpr h.course, by rw [h2]; exact h.width, by rw [h2]; exact h.index, by rw [h2]; exact h.offset,
      h.float, h.nonneg, h.within, chain_snoc h.chain hch, ?_, ?_⟩⟩
    · intro i hi
      have := h.near i hi
      unfold AxisNear at this ⊢
      rw [h5]; exact this
    · have := h.left
      simp only [List.map_cons, List.map_append, List.map_nil, List.sum_cons, List.sum_append, List.sum_nil] at this ⊢
      linarith

private theorem Stands.start {fpu : Fpu} {q : ℝ} {x : Nat → ℝ} {l : List Piece} {c : MotionCtrl (cnc3axis32.kit32 fpu)}
    (h : Stands fpu q x l c) : Stage fpu q x l (l.map Piece.cost).sum c.start := by
  cases l with
  | nil =>
    have e : c.start = c := by
      unfold MotionCtrl.start
      rw [if_neg (by simp [MotionBuffer.isEmpty, h.queue.level])]
    rw [e]; exact .inl h
  | cons a l =>
    obtain ⟨h1, h2, h3, h4, h5⟩ := Plans.start (by rw [h.time]; exact plans h.override) h.queue (by simp)
    obtain ⟨D, P, hcs⟩ := h1.getHead.course
    refine .inr ⟨a, l, D, P, 0, 0, rfl, ⟨h3, by rw [h4]; exact h.override, h1, hcs, by rw [h2, h.time], by rw [h2, h.time],
      by rw [h2, h.time], rnd_zero, le_rfl, by rw [instant_zero fpu rnd_zero]; exact hcs.pos.le, h.chain, fun i hi => ?_, by simp⟩⟩
    have := h.near i hi
    rw [← h.chain.1 i hi] at this
    unfold AxisNear
    rw [h5]
    exact ⟨fun _ => this, fun _ => .inl ⟨rfl, rfl, this⟩⟩

private theorem Stands.start_stopped {fpu : Fpu} {q : ℝ} {x : Nat → ℝ} {l : List Piece} {c : MotionCtrl (cnc3axis32.kit32 fpu)}
    (h : Stands fpu q x l c) (hst : c.start.state = .stopped) : l = [] := by
  cases l with
  | nil => rfl
  | cons a l =>
    obtain ⟨-, -, h3, -⟩ := Plans.start (by rw [h.time]; exact plans h.override) h.queue (by simp)
    rw [h3] at hst; cases hst

/-- The whole history. -/
private theorem history {fpu : Fpu} {q : ℝ} 
    (ks : List (Call (cnc3axis32.kit32 fpu).Req (cnc3axis32.kit32 fpu).Time (cnc3axis32.kit32 fpu).Ovr)) : ∀ {x : Nat → ℝ} {l ps : List Piece}
    {c c' : MotionCtrl (cnc3axis32.kit32 fpu)} {log}, Stage fpu q x l (l.map Piece.cost).sum c → (∀ a ∈ l ++ ps, a.Ok q) →
    Chain x (l ++ ps) → Orderly c ks → appendedRequests ks = ps.map Piece.r →
    c.run ks = some (c', log) →
    ∃ done todo, l ++ ps = done ++ todo ∧ Stage fpu q (after x done) todo (todo.map Piece.cost).sum c' := by
  induction ks with
  | nil =>
    intro x l ps c c' log h hok hch _ hap hr
    simp only [run, Option.some.injEq, Prod.mk.injEq] at hr
    obtain ⟨rfl, -⟩ := hr
    have : ps = [] := by
      simp only [appendedRequests, List.filterMap_nil] at hap
      exact List.map_eq_nil_iff.1 hap.symm
    subst this
    exact ⟨[], l, by simp, by rw [after_nil]; exact h⟩
  | cons k ks ih =>
    intro x l ps c c' log h hok hch hord hap hr
    rw [run] at hr
    split at hr
    · cases hr
    rename_i c₁ r hc
    simp only [Option.map_eq_some_iff, Prod.exists, Prod.mk.injEq] at hr
    obtain ⟨c₂, log₂, hr, rfl, -⟩ := hr
    have hord2 := hord.2 _ _ hc
    cases k with
    | append r =>
      have hlv : c.buffer.level < 32 := hord.1
      simp only [call, Option.some.injEq, Prod.mk.injEq] at hc
      obtain ⟨rfl, -⟩ := hc
      cases ps with
      | nil => simp [appendedRequests] at hap
      | cons a ps =>
        have hap' : r = a.r ∧ appendedRequests ks = ps.map Piece.r := by
          exact List.cons.inj hap
        obtain ⟨rfl, hap'⟩ := hap'
        have hch2 := (chain_append l).1 hch
        have hst := h.append hlv (hok a (by simp)) ⟨hch2.2.1, trivial⟩
        have := ih (x := x) (l := l ++ [a]) (ps := ps) (c := c.append a.r) (c' := c₂) (by simpa using hst) (by simpa using hok)
          (by simpa using hch) hord2 hap' hr
        simpa using this
    | start =>
      have hst0 : c.state = .stopped := hord.1
      simp only [call, Option.some.injEq, Prod.mk.injEq] at hc
      obtain ⟨rfl, -⟩ := hc
      rcases h with h | ⟨_, _, _, _, _, _, _, h⟩
      · exact ih h.start hok hch hord2 (by simpa [appendedRequests] using hap) hr
      · rw [h.state] at hst0; cases hst0
    | calculate =>
      obtain ⟨done, todo, hT, hs, -⟩ := Progress.calc (X := x) (T := l) (over := False) ⟨[], l, by simp, by rw [after_nil]; exact h, by simp⟩ hc
      subst hT
      rw [List.append_assoc] at hok hch
      have hs' : Stage fpu q (after x done) todo (todo.map Piece.cost).sum c₁ :=
        hs.reset
      obtain ⟨done', todo', h1, h2⟩ := ih (x := after x done) hs' (fun a ha => hok a (List.mem_append_right _ ha)) ((chain_append done).1 hch).2 hord2
        (by simpa [appendedRequests] using hap) hr
      exact ⟨done ++ done', todo', by rw [List.append_assoc, List.append_assoc, h1], by rw [after_append]; exact h2⟩
    | configure => exact absurd hord.1 (by simp)
    | stop => exact absurd hord.1 (by simp)
    | flush => exact absurd hord.1 (by simp)
    | resetPosition => exact absurd hord.1 (by simp)
    | override => exact absurd hord.1 (by simp)

private theorem Going.point {fpu : Fpu} {q : ℝ} {x : Nat → ℝ} {l : List Piece} {B : ℝ} {c : MotionCtrl (cnc3axis32.kit32 fpu)}
    (h : Going fpu q x l B c) : ∃ a l', l = a :: l' ∧ ∃ s, 0 ≤ s ∧ s ≤ a.L ∧
      ∀ i, i < 3 → |200 * ExecSpec.place a.r i s - c.machinePosition i| ≤ 1 := by
  obtain ⟨a, l', D, P, o, k, rfl, h⟩ := h
  have hok := h.queue.getHead.ok
  obtain ⟨hL, -, -, -, hpl⟩ := hok.facts
  refine ⟨a, l', rfl, ?_⟩
  by_cases h0 : k = 0 ∧ o = 0
  · obtain ⟨rfl, rfl⟩ := h0
    refine ⟨0, le_rfl, hL.le, fun i hi => ?_⟩
    obtain ⟨n1, n2⟩ := h.near i hi
    rw [(hpl i hi).1]
    cases hm : (Trajectory32.ofReq a.r.trajectory).isMoving i with
    | false => exact n1 hm
    | true =>
      rcases n2 hm with ⟨-, -, h2⟩ | h2
      · exact h2
      · rw [instant_zero fpu rnd_zero] at h2
        have h3 := abs_le.1 (h.course.zero i hi)
        have h2 := abs_le.1 h2
        rw [abs_le]
        constructor <;> linarith
  · obtain ⟨s, s0, s1, hl⟩ := h.course.path _ (instant_nonneg fpu h.float h.nonneg k) h.within
    refine ⟨s, s0, s1, fun i hi => ?_⟩
    obtain ⟨n1, n2⟩ := h.near i hi
    cases hm : (Trajectory32.ofReq a.r.trajectory).isMoving i with
    | false => rw [(h.course.still i hi hm).2]; exact n1 hm
    | true =>
      rcases n2 hm with ⟨e1, e2, -⟩ | h2
      · exact absurd ⟨e1, e2⟩ h0
      · have h3 := abs_le.1 (hl i hi)
        have h2 := abs_le.1 h2
        rw [abs_le]
        constructor <;> linarith

private theorem Stands.of_idle {fpu : Fpu} {q : ℝ} {x : Nat → ℝ} {c : MotionCtrl (cnc3axis32.kit32 fpu)}
    (hc : Idle32 width32 c) (hq : c.overrides.feedOverride = fin q) (hm : ∀ i, i < 3 → |200 * x i - c.machinePosition i| ≤ 1) :
    Stands fpu q x [] c := by
  refine ⟨hc.state, hq, ⟨hc.head, hc.level, by simp, fun k hk => absurd hk (by simp)⟩, ?_, trivial, hm⟩
  rcases hct : c.time with ⟨a1, a2, a3, a4⟩
  have j1 := hc.now; have j2 := hc.offset; have j3 := hc.index; have j4 := hc.width
  rw [hct] at j1 j2 j3 j4
  simp only at j1 j2 j3 j4
  rw [j1, j2, j3, j4]

/-! ## C98 -/

/-- **C98** Straight motions that follow one another, appended to the queue in any order of appending, starting and calculating: at any
time the motions are executed in order, without one being skipped; the motors are within one step of the motion that is executed
(of the end of the last one when stopped), and if no more motions are appended, the machine stops after a bounded number of
calculations, within one step of the end of the last motion. The error does not grow with the number of motions. -/
theorem queue_single {fpu : Fpu} {q : ℝ} {x : Nat → ℝ} {ps : List Piece} {c c' : MotionCtrl (cnc3axis32.kit32 fpu)}
    {ks : List (Call (cnc3axis32.kit32 fpu).Req (cnc3axis32.kit32 fpu).Time (cnc3axis32.kit32 fpu).Ovr)} {log}
    (hc : Idle32 width32 c) (hq : c.overrides.feedOverride = fin q) (hm : ∀ i, i < 3 → |200 * x i - c.machinePosition i| ≤ 1)
    (hok : ∀ a ∈ ps, a.Ok q) (hch : Chain x ps) (ho : Orderly c ks) (ha : appendedRequests ks = ps.map Piece.r)
    (h : c.run ks = some (c', log)) :
    ∃ done todo, ps = done ++ todo ∧ c'.buffer.level = todo.length ∧
      (c'.state = .stopped → ∀ i, i < 3 → |200 * after x done i - c'.machinePosition i| ≤ 1) ∧
      (c'.state ≠ .stopped → ∃ a l, todo = a :: l ∧ ∃ s, 0 ≤ s ∧ s ≤ a.L ∧
        ∀ i, i < 3 → |200 * ExecSpec.place a.r i s - c'.machinePosition i| ≤ 1) ∧
      (c'.state ≠ .stopped → ∀ (n : Nat) c'' log', (todo.map Piece.cost).sum ≤ n →
        c'.run (List.replicate n .calculate) = some (c'', log') →
        Idle32 width32 c'' ∧ ∀ i, i < 3 → |200 * after x ps i - c''.machinePosition i| ≤ 1) := by
  have h0 := Stands.of_idle hc hq hm
  obtain ⟨done, todo, e, hs⟩ := history ks (.inl h0) (by simpa using hok) (by simpa using hch) ho ha h
  rw [List.nil_append] at e
  subst e
  refine ⟨done, todo, rfl, ?_⟩
  rcases hs with hs | hs
  · exact ⟨hs.queue.level, fun _ => hs.near, fun h => absurd hs.state h, fun h => absurd hs.state h⟩
  · have hp := hs.point
    have hrun : c'.state = .running ∧ c'.buffer.level = todo.length := by
      obtain ⟨a, l, D, P, o, k, rfl, h⟩ := hs
      exact ⟨h.state, h.queue.level⟩
    refine ⟨hrun.2, fun h => (by rw [hrun.1] at h; cases h), fun _ => hp, fun _ n c'' log' hn hr => ?_⟩
    have hpr : Progress fpu q (after x done) todo True (todo.map Piece.cost).sum c' :=
      ⟨[], todo, rfl, .inr (by rw [after_nil]; exact hs), fun _ h => (by rw [hrun.1] at h; cases h)⟩
    obtain ⟨done', todo', e, hs', hover⟩ := hpr.calcs n hr
    rcases hs' with hs' | ⟨a, l, D, P, o, k, rfl, hs'⟩
    · have e' := hover trivial hs'.state
      subst e'
      rw [List.append_nil] at e
      subst e
      rw [after_append]
      have ht := hs'.time
      exact ⟨⟨hs'.state, hs'.queue.level, hs'.queue.head, by rw [ht], by rw [ht], by rw [ht], by rw [ht]⟩, hs'.near⟩
    · exfalso
      have h1 := hs'.left
      have h2 := hs'.count.1
      rw [List.map_cons, List.sum_cons] at h1
      have h3 : 0 ≤ (l.map Piece.cost).sum := by
        apply List.sum_nonneg
        intro y hy
        obtain ⟨b, hb, rfl⟩ := List.mem_map.1 hy
        refine cost_nonneg (hok b ?_)
        rw [e]; simp [hb]
      linarith

theorem tail_append_state {K : MotionKit} (c : MotionCtrl K) (r : K.Req) : (c.append r).state = c.state := by
  unfold MotionCtrl.append
  split <;> rfl

private theorem Stands.appends {fpu : Fpu} {q : ℝ} {x : Nat → ℝ} (ps : List Piece) : ∀ {l : List Piece}
    {c c' : MotionCtrl (cnc3axis32.kit32 fpu)} {log}, Stands fpu q x l c → (l ++ ps).length ≤ 32 → (∀ a ∈ ps, a.Ok q) →
    Chain x (l ++ ps) → c.run (ps.map fun a => .append a.r) = some (c', log) → Stands fpu q x (l ++ ps) c' := by
  induction ps with
  | nil =>
    intro l c c' log h _ _ _ hr
    simp only [List.map_nil, run, Option.some.injEq, Prod.mk.injEq] at hr
    obtain ⟨rfl, -⟩ := hr
    simpa using h
  | cons a ps ih =>
    intro l c c' log h hl hok hch hr
    simp only [List.map_cons, run, call, Option.map_eq_some_iff, Prod.exists, Prod.mk.injEq] at hr
    obtain ⟨c₂, log₂, hr, rfl, -⟩ := hr
    have hch2 := (chain_append l).1 hch
    have hlv := h.queue.level
    simp only [List.length_append, List.length_cons] at hl
    rcases Stage.append (B := 0) (.inl h) (by omega) (hok a (by simp)) ⟨hch2.2.1, trivial⟩ with h' | ⟨_, _, _, _, _, _, _, h'⟩
    · have := ih h' (by simp; omega) (fun b hb => hok b (by simp [hb])) (by simpa using hch) hr
      simpa using this
    · have e1 := h'.state
      rw [(tail_append_state c a.r : (c.append a.r).state = c.state), h.state] at e1
      cases e1

/-- **C98** In particular: appending up to 32 such motions, starting, and calculating often enough executes all of them. -/
theorem queue_batch_single {fpu : Fpu} {q : ℝ} {x : Nat → ℝ} {ps : List Piece} {n : Nat} {c c' : MotionCtrl (cnc3axis32.kit32 fpu)} {log}
    (hc : Idle32 width32 c) (hq : c.overrides.feedOverride = fin q) (hm : ∀ i, i < 3 → |200 * x i - c.machinePosition i| ≤ 1)
    (hok : ∀ a ∈ ps, a.Ok q) (hch : Chain x ps) (hps : ps.length ≤ 32) (hn : (ps.map Piece.cost).sum ≤ n)
    (h : c.run ((ps.map fun a => .append a.r) ++ .start :: List.replicate n .calculate) = some (c', log)) :
    Idle32 width32 c' ∧ ∀ i, i < 3 → |200 * after x ps i - c'.machinePosition i| ≤ 1 := by
  obtain ⟨c₁, log₁, log₂, h1, h2, -⟩ := run_split _ _ h
  have hs := (Stands.of_idle hc hq hm).appends ps (by simpa using hps) hok (by simpa using hch) h1
  rw [List.nil_append] at hs
  simp only [run, call, Option.map_eq_some_iff, Prod.exists, Prod.mk.injEq] at h2
  obtain ⟨c₂, log₃, h2, rfl, -⟩ := h2
  have hpr : Progress fpu q x ps True (ps.map Piece.cost).sum c₁.start :=
    ⟨[], ps, rfl, by rw [after_nil]; exact hs.start, fun _ hst => hs.start_stopped hst⟩
  obtain ⟨done', todo', e, hs', hover⟩ := hpr.calcs n h2
  rcases hs' with hs' | ⟨a, l, D, P, o, k, rfl, hs'⟩
  · have e' := hover trivial hs'.state
    subst e'
    rw [List.append_nil] at e
    subst e
    have ht := hs'.time
    exact ⟨⟨hs'.state, hs'.queue.level, hs'.queue.head, by rw [ht], by rw [ht], by rw [ht], by rw [ht]⟩, hs'.near⟩
  · exfalso
    have h1 := hs'.left
    have h2 := hs'.count.1
    rw [List.map_cons, List.sum_cons] at h1
    have h3 : 0 ≤ (l.map Piece.cost).sum := by
      apply List.sum_nonneg
      intro y hy
      obtain ⟨b, hb, rfl⟩ := List.mem_map.1 hy
      refine cost_nonneg (hok b ?_)
      rw [e]; simp [hb]
    linarith

theorem orderly_calculates {K : MotionKit} (n : Nat) : ∀ c : MotionCtrl K, Orderly c (List.replicate n .calculate) := by
  induction n with
  | zero => intro c; trivial
  | succ n ih => intro c; rw [List.replicate_succ]; exact ⟨trivial, fun c' _ _ => ih c'⟩

theorem orderly_begin {K : MotionKit} {c : MotionCtrl K} (hs : c.state = .stopped) (hl : c.buffer.level = 0) (r r' : K.Req) (n : Nat) :
    Orderly c (.append r :: .append r' :: .start :: List.replicate n .calculate) := by
  have h1 : (c.append r).buffer.level = 1 := by
    unfold MotionCtrl.append
    rw [if_pos (by simp [MotionBuffer.isFull, MotionBuffer.length, hl])]
    show u32add c.buffer.level 1 = 1
    rw [hl]; rfl
  refine ⟨by show c.buffer.level < 32; omega, fun c₁ _ e => ?_⟩
  simp only [call, Option.some.injEq, Prod.mk.injEq] at e
  obtain ⟨rfl, -⟩ := e
  refine ⟨by show (c.append r).buffer.level < 32; omega, fun c₁ _ e => ?_⟩
  simp only [call, Option.some.injEq, Prod.mk.injEq] at e
  obtain ⟨rfl, -⟩ := e
  exact ⟨by show ((c.append r).append r').state = _; rw [tail_append_state, tail_append_state, hs], fun c₁ _ _ => orderly_calculates n c₁⟩

private noncomputable def there : Piece := ⟨oblique, fun _ => 0, fun i => if i = 0 then 30 else if i = 1 then 40 else 0, 50, 10⟩

private noncomputable def back : Piece :=
  ⟨homeward, fun i => if i = 0 then 30 else if i = 1 then 40 else 0, fun i => if i = 0 then -30 else if i = 1 then -40 else 0, 50, 10⟩

private theorem there_ok : there.Ok 1 :=
  ⟨.inl ⟨oblique_line, .inr ⟨10, rfl, by norm_num, by norm_num, by norm_num, by norm_num [there]⟩⟩, by norm_num [there], by norm_num [there]⟩

private theorem back_ok : back.Ok 1 :=
  ⟨.inl ⟨homeward_line, .inr ⟨10, rfl, by norm_num, by norm_num, by norm_num, by norm_num [back]⟩⟩, by norm_num [back], by norm_num [back]⟩

private theorem there_and_back : Chain (fun _ => 0) [there, back] :=
  ⟨fun _ _ => rfl, fun i _ => by show (if _ then _ else _) = (0 : ℝ) + (if _ then _ else _); rw [zero_add], trivial⟩

/-- From the origin to (30, 40, 0) mm and back, both motions in the queue from the beginning: however many calculations later, the
machine is within one step of the line between the two points; after 915000 (15.25 s) it is back. -/
example (fpu : Fpu) (n : Nat) :
    ∃ c' log, (MotionCtrl.fresh (cnc3axis32.kit32 fpu)).run (.configure 375 (num width32) :: .append oblique :: .append homeward :: .start ::
        List.replicate n .calculate) = some (c', log) ∧
      (∃ s : ℝ, 0 ≤ s ∧ s ≤ 1 ∧ |6000 * s - c'.machinePosition 0| ≤ 1 ∧ |8000 * s - c'.machinePosition 1| ≤ 1) ∧
      (915000 ≤ n → |c'.machinePosition 0| ≤ 1 ∧ |c'.machinePosition 1| ≤ 1 ∧ |c'.machinePosition 2| ≤ 1) := by
  obtain ⟨c', log, hrun, -⟩ := motion_history_returns (K := cnc3axis32.kit32 fpu) (.configure 375 (num width32) :: .append oblique ::
    .append homeward :: .start :: List.replicate n .calculate)
  refine ⟨c', log, hrun, ?_⟩
  obtain ⟨c₁, log₁, log₂, h1, h2, rfl⟩ := run_split (K := cnc3axis32.kit32 fpu) [.configure 375 (num width32)]
    (.append oblique :: .append homeward :: .start :: List.replicate n .calculate) hrun
  simp only [run, call, Option.map_some, Option.some.injEq, Prod.mk.injEq] at h1
  obtain ⟨rfl, rfl⟩ := h1
  obtain ⟨i1, i2, i3⟩ := idle_configured_single fpu 375
  have hz : ∀ i, i < 3 → |200 * (0 : ℝ) - (((MotionCtrl.fresh (cnc3axis32.kit32 fpu)).configure 375 (num width32)).machinePosition i : ℝ)| ≤
      1 := fun i _ => by rw [i2]; norm_num
  have hok : ∀ a ∈ [there, back], a.Ok 1 := by
    intro a ha
    simp only [List.mem_cons, List.not_mem_nil, or_false] at ha
    rcases ha with rfl | rfl
    · exact there_ok
    · exact back_ok
  constructor
  · have hap : appendedRequests (R := SimplifiedMotion) (T := Single) (O := Overrides)
        (.append oblique :: .append homeward :: .start :: List.replicate n .calculate) = [there, back].map Piece.r := by
      have : ∀ n, appendedRequests (R := SimplifiedMotion) (T := Single) (O := Overrides) (List.replicate n .calculate) = [] := by
        intro n
        induction n with
        | zero => rfl
        | succ n ih => rw [List.replicate_succ]; exact ih
      exact congrArg (fun l => oblique :: homeward :: l) (this n)
    obtain ⟨done, todo, e, -, hstop, hmove, -⟩ := queue_single i1 i3 hz hok there_and_back
      (orderly_begin i1.state i1.level oblique homeward n) hap h2
    by_cases hst : c'.state = .stopped
    · have h0 := hstop hst 0 (by norm_num)
      have h1 := hstop hst 1 (by norm_num)
      rcases done with _ | ⟨a, _ | ⟨b, _ | ⟨d, l⟩⟩⟩
      · refine ⟨0, le_rfl, by norm_num, ?_⟩
        norm_num [after] at h0 h1 ⊢
        exact ⟨h0, h1⟩
      · simp only [List.cons_append, List.nil_append, List.cons.injEq] at e
        obtain ⟨rfl, -⟩ := e
        refine ⟨1, by norm_num, le_rfl, ?_⟩
        norm_num [after, there] at h0 h1 ⊢
        exact ⟨h0, h1⟩
      · simp only [List.cons_append, List.nil_append, List.cons.injEq] at e
        obtain ⟨rfl, rfl, -⟩ := e
        refine ⟨0, by norm_num, by norm_num, ?_⟩
        norm_num [after, there, back] at h0 h1 ⊢
        exact ⟨h0, h1⟩
      · simp at e
    · obtain ⟨a, l, rfl, s, s0, s1, hp⟩ := hmove hst
      have h0 := hp 0 (by norm_num)
      have h1 := hp 1 (by norm_num)
      have ha : a = there ∨ a = back := by
        have : a ∈ [there, back] := by rw [e]; simp
        simpa using this
      rcases ha with rfl | rfl
      · have s1 : s ≤ 50 := s1
        refine ⟨s / 50, by positivity, by linarith, ?_⟩
        rw [show there.r = oblique from rfl, oblique_line.place_eq (by norm_num)] at h0 h1
        norm_num at h0 h1
        rw [show 6000 * (s / 50) = 200 * (30 * (s / 50)) by ring, show 8000 * (s / 50) = 200 * (40 * (s / 50)) by ring]
        exact ⟨h0, h1⟩
      · have s1 : s ≤ 50 := s1
        refine ⟨1 - s / 50, by linarith, by linarith [show 0 ≤ s / 50 by positivity], ?_⟩
        rw [show back.r = homeward from rfl, homeward_line.place_eq (by norm_num)] at h0 h1
        norm_num at h0 h1
        rw [show 6000 * (1 - s / 50) = 200 * (30 + -(30 * (s / 50))) by ring, show 8000 * (1 - s / 50) = 200 * (40 + -(40 * (s / 50))) by ring]
        exact ⟨h0, h1⟩
  · intro hn
    have hn' : (915000 : ℝ) ≤ n := by exact_mod_cast hn
    obtain ⟨-, hp⟩ := queue_batch_single (ps := [there, back]) (n := n) i1 i3 hz hok there_and_back (by simp)
      (by simp only [List.map_cons, List.map_nil, List.sum_cons, List.sum_nil, Piece.cost, there, back]; norm_num; linarith) h2
    have h0 := hp 0 (by norm_num)
    have h1 := hp 1 (by norm_num)
    have h2 := hp 2 (by norm_num)
    norm_num [after, there, back] at h0 h1 h2
    exact ⟨by exact_mod_cast h0, by exact_mod_cast h1, by exact_mod_cast h2⟩

/-- The diameter of the half circle `bow`, backwards, at 10 mm/s. -/
noncomputable def diameter : SimplifiedMotion :=
  { oblique with
    trajectory := { oblique.trajectory with
      startPosition := fun i => if i = 0 then fin 20 else fin 0
      delta := fun i => if i = 0 then fin (-20) else fin 0
      length := fin 20 } }

theorem diameter_line : LineRequest diameter (fun i => if i = 0 then 20 else 0) (fun i => if i = 0 then -20 else 0) 20 where
  euclid := by norm_num
  long := by norm_num
  start i _ := by split_ifs <;> norm_num
  stop i _ := by split_ifs <;> norm_num
  span i _ := by split_ifs <;> norm_num
  type := .inr rfl
  axes := ⟨le_rfl, le_rfl⟩
  from_ i _ := by show (if _ then _ else _) = _; split_ifs <;> rfl
  by_ i _ := by show (if _ then _ else _) = _; split_ifs <;> rfl
  length := rfl
  seen i _ := by split_ifs <;> norm_num

private noncomputable def along : Piece := ⟨bowRequest, fun _ => 0, fun i => if i = 0 then 20 else 0, 10 * Real.pi, 10⟩

private noncomputable def across : Piece :=
  ⟨diameter, fun i => if i = 0 then 20 else 0, fun i => if i = 0 then -20 else 0, 20, 10⟩

private theorem along_ok : along.Ok 1 := by
  refine ⟨.inr ⟨bow, 10, bow_arc, .inr ⟨10, rfl, by norm_num, by norm_num, by norm_num, by norm_num, ?_⟩, ?_⟩, ?_, ?_⟩
  · show (10 * Real.pi) ^ 2 ≤ 99000 * 10 ^ 3
    have := Real.pi_lt_four
    have := Real.pi_pos
    nlinarith
  · rw [min_eq_left]; · rfl
    exact Real.le_sqrt_of_sq_le (by norm_num [bow])
  · show (1 : ℝ) / 128 ≤ 10 * Real.pi
    have := Real.pi_gt_three; linarith
  · show 10 * Real.pi ≤ 85 * 10
    have := Real.pi_lt_four; linarith

private theorem across_ok : across.Ok 1 :=
  ⟨.inl ⟨diameter_line, .inr ⟨10, rfl, by norm_num, by norm_num, by norm_num, by norm_num [across]⟩⟩, by norm_num [across], by norm_num [across]⟩

/-- Along a half circle from the origin to (20, 0, 0) mm, and back on its diameter: while the machine runs it is within one step of
a point of the half circle around (10, 0) or of the diameter; after 669000 calculations (11.2 s) it is back. -/
example (fpu : Fpu) (n : Nat) :
    ∃ c' log, (MotionCtrl.fresh (cnc3axis32.kit32 fpu)).run (.configure 375 (num width32) :: .append bowRequest :: .append diameter ::
        .start :: List.replicate n .calculate) = some (c', log) ∧
      (c'.state ≠ .stopped → ∃ X Y : ℝ, |200 * X - c'.machinePosition 0| ≤ 1 ∧ |200 * Y - c'.machinePosition 1| ≤ 1 ∧
        ((X - 10) ^ 2 + Y ^ 2 = 10 ^ 2 ∨ 0 ≤ X ∧ X ≤ 20 ∧ Y = 0)) ∧
      (669000 ≤ n → c'.state = .stopped ∧ |c'.machinePosition 0| ≤ 1 ∧ |c'.machinePosition 1| ≤ 1 ∧ |c'.machinePosition 2| ≤ 1) := by
  obtain ⟨c', log, hrun, -⟩ := motion_history_returns (K := cnc3axis32.kit32 fpu) (.configure 375 (num width32) :: .append bowRequest ::
    .append diameter :: .start :: List.replicate n .calculate)
  refine ⟨c', log, hrun, ?_⟩
  obtain ⟨c₁, log₁, log₂, h1, h2, rfl⟩ := run_split (K := cnc3axis32.kit32 fpu) [.configure 375 (num width32)]
    (.append bowRequest :: .append diameter :: .start :: List.replicate n .calculate) hrun
  simp only [run, call, Option.map_some, Option.some.injEq, Prod.mk.injEq] at h1
  obtain ⟨rfl, rfl⟩ := h1
  obtain ⟨i1, i2, i3⟩ := idle_configured_single fpu 375
  have hz : ∀ i, i < 3 → |200 * (0 : ℝ) - (((MotionCtrl.fresh (cnc3axis32.kit32 fpu)).configure 375 (num width32)).machinePosition i : ℝ)| ≤
      1 := fun i _ => by rw [i2]; norm_num
  have hok : ∀ a ∈ [along, across], a.Ok 1 := by
    intro a ha
    simp only [List.mem_cons, List.not_mem_nil, or_false] at ha
    rcases ha with rfl | rfl
    · exact along_ok
    · exact across_ok
  have hch : Chain (fun _ => 0) [along, across] :=
    ⟨fun _ _ => rfl, fun i _ => by show (if _ then _ else _) = (0 : ℝ) + (if _ then _ else _); rw [zero_add], trivial⟩
  constructor
  · have hap : appendedRequests (R := SimplifiedMotion) (T := Single) (O := Overrides)
        (.append bowRequest :: .append diameter :: .start :: List.replicate n .calculate) = [along, across].map Piece.r := by
      have : ∀ n, appendedRequests (R := SimplifiedMotion) (T := Single) (O := Overrides) (List.replicate n .calculate) = [] := by
        intro n
        induction n with
        | zero => rfl
        | succ n ih => rw [List.replicate_succ]; exact ih
      exact congrArg (fun l => bowRequest :: diameter :: l) (this n)
    obtain ⟨done, todo, e, -, -, hmove, -⟩ := queue_single i1 i3 hz hok hch
      (orderly_begin i1.state i1.level bowRequest diameter n) hap h2
    intro hst
    obtain ⟨a, l, rfl, s, s0, s1, hp⟩ := hmove hst
    refine ⟨_, _, hp 0 (by norm_num), hp 1 (by norm_num), ?_⟩
    have ha : a = along ∨ a = across := by
      have : a ∈ [along, across] := by rw [e]; simp
      simpa using this
    rcases ha with rfl | rfl
    · left
      rw [show along.r = bowRequest from rfl, bow_arc.place_eq (by norm_num), bow_arc.place_eq (by norm_num)]
      unfold Arc32.point
      have := Real.sin_sq_add_cos_sq (Real.pi + -Real.pi / (10 * Real.pi) * s)
      simp only [bow, if_true, one_ne_zero, if_false]
      nlinarith
    · right
      have s1 : s ≤ 20 := s1
      rw [show across.r = diameter from rfl, diameter_line.place_eq (by norm_num), diameter_line.place_eq (by norm_num)]
      norm_num
      constructor <;> linarith
  · intro hn
    have hn' : (669000 : ℝ) ≤ n := by exact_mod_cast hn
    have hpi := Real.pi_lt_d2
    obtain ⟨hi, hp⟩ := queue_batch_single (ps := [along, across]) (n := n) i1 i3 hz hok hch (by simp)
      (by simp only [List.map_cons, List.map_nil, List.sum_cons, List.sum_nil, Piece.cost, along, across]; norm_num; linarith) h2
    have h0 := hp 0 (by norm_num)
    have h1 := hp 1 (by norm_num)
    have h2 := hp 2 (by norm_num)
    norm_num [after, along, across] at h0 h1 h2
    exact ⟨hi.state, by exact_mod_cast h0, by exact_mod_cast h1, by exact_mod_cast h2⟩

end Moovr.Props
