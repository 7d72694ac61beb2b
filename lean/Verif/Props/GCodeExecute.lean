import Verif.Props.GCodeFeed
import Verif.Props.Execute
/-!
# From G-code text to the positions of the axes (C83)

The motions that the interpreter hands out are given to the motion controller. The end of one part is the beginning of the other: the
specification below speaks about the interpreter's positions only.
-/
namespace Moovr.Props
open GCode Parser Num ExecSpec MotionSpec MotionCtrl

/-! ## Specification -/

/-- The arc of a motion has a centre with the same positive distance to both positions. -/
def ProperArc (m : SimplifiedMotion) (x y : Nat → ℚ) : Prop :=
  ∃ c0 c1 rho : ℝ, m.trajectory.arcCenter0 = fin c0 ∧ m.trajectory.arcCenter1 = fin c1 ∧ m.trajectory.radius = fin rho ∧ 0 < rho ∧
    ((x m.trajectory.arcAxis0 : ℝ) - c0) ^ 2 + ((x m.trajectory.arcAxis1 : ℝ) - c1) ^ 2 = rho ^ 2 ∧
    ((y m.trajectory.arcAxis0 : ℝ) - c0) ^ 2 + ((y m.trajectory.arcAxis1 : ℝ) - c1) ^ 2 = rho ^ 2

/-- A call of `parseBlock` that programs a path from the position `x` before to the position `y` after it: straight between different
positions, or a proper arc. -/
def Travels (e : Parser × Parser × SimplifiedMotion) : Prop :=
  e.2.2.type.moves = true ∧
    ((¬ IsArc e.2.2 ∧ ∃ i, i < 3 ∧ e.2.1.state.currentPosition i ≠ e.1.state.currentPosition i) ∨
     (IsArc e.2.2 ∧ ProperArc e.2.2 e.1.state.currentPosition e.2.1.state.currentPosition))

/-- All blocks of the execution that are reported as motions program a path, and there is no G53. -/
def Programs (log : List (Parser × Parser × SimplifiedMotion)) : Prop :=
  ∀ e ∈ log, ¬ HasCode e.1.block.words 'G' 530 ∧ (Reported e.2.1.result → Travels e)

/-- The position of the interpreter, as real numbers. -/
def at_ (p : Parser) (i : Nat) : ℝ := (p.state.currentPosition i : ℝ)

/-! ## Single motions -/

theorem reported_ne {r : Result} (h : Reported r) : r ≠ .error := by
  rcases h with h | h <;> rw [h] <;> simp

/-- What the interpreter makes of a straight path. -/
theorem straight_executable {p p' : Parser} {m m' : SimplifiedMotion} (hr : GCode.Rest p) (h : p.parseBlock m = .ok (p', m'))
    (hm : Moved p' m') (ha : ¬ IsArc m') {rho : ℝ} (hrho : m.trajectory.radius = fin rho)
    (hne : ∃ i, i < 3 ∧ p'.state.currentPosition i ≠ p.state.currentPosition i) :
    Executable 3 m' ∧ m'.trajectory.arcAxis0 = 3 ∧ m'.trajectory.arcAxis1 = 3 ∧
      (∀ i, i < 3 → m'.trajectory.startPosition i = fin (at_ p i) ∧ m'.trajectory.delta i = fin (at_ p' i - at_ p i)) ∧
      val m'.trajectory.length = √((at_ p' 0 - at_ p 0) ^ 2 + (at_ p' 1 - at_ p 1) ^ 2 + (at_ p' 2 - at_ p 2) ^ 2) := by
  obtain ⟨⟨L, hL, hl, -⟩, hlen⟩ := straight_leads hr h hm ha hrho rfl rfl hne
  obtain ⟨q, mi, mo, ty, tr, cur, nx, -⟩ := moved_motion hr h hm
  have ha' : isArc mi = false := by
    rw [← Bool.not_eq_true, isArc_iff]; unfold IsArc; rw [ty]; exact ha
  obtain ⟨a0, a1⟩ := mo.axes_straight ha'
  obtain ⟨rho', hrho'⟩ := mo.finite ⟨rho, by rw [tr]; exact hrho⟩
  have hδ : ∀ i, i < 3 → m'.trajectory.delta i = fin (at_ p' i - at_ p i) := by
    intro i hi
    rw [mo.delta i hi, nx i hi, cur]
    unfold num at_; push_cast; rfl
  have hst : ∀ i, i < 3 → m'.trajectory.startPosition i = fin (at_ p i) := by
    intro i hi
    rw [mo.start i hi, cur]; rfl
  have hv : val m'.trajectory.length = L := by rw [hl]; rfl
  obtain ⟨i, hi, hn⟩ := hne
  refine ⟨⟨⟨hm.2, by rw [hl]; rfl, by rw [hv]; exact hL, fun i hi => ⟨_, hδ i hi⟩, ⟨rho', hrho', ?_⟩, ⟨i, hi, .inr (.inr ⟨_, ?_, hδ i hi⟩)⟩⟩,
    fun i hi => ⟨_, hst i hi⟩, ?_⟩, a0, a1, fun i hi => ⟨hst i hi, hδ i hi⟩, ?_⟩
  · intro i hi h; rw [a0, a1] at h; omega
  · unfold at_
    rw [sub_ne_zero]
    exact_mod_cast hn
  · intro h; rw [a0, a1] at h; omega
  · rw [hlen]
    unfold val at_
    push_cast
    rfl

/-- What the interpreter makes of a proper arc. -/
theorem arc_executable {p p' : Parser} {m m' : SimplifiedMotion} (hr : GCode.Rest p) (h : p.parseBlock m = .ok (p', m'))
    (hm : Moved p' m') (ha : IsArc m') (hp : ProperArc m' p.state.currentPosition p'.state.currentPosition) : Executable 3 m' := by
  obtain ⟨c0, c1, rho, h0, h1, hrho, hpos, hs, he⟩ := hp
  obtain ⟨L, hL, hl, -⟩ := arc_leads hr h hm ha h0 h1 hrho hpos rfl rfl hs he
  obtain ⟨q, mi, mo, ty, tr, cur, nx, -⟩ := moved_motion hr h hm
  obtain ⟨-, -, -, hne, l0, l1⟩ := arc_plane_partial hr h hm ha
  obtain ⟨θ, φ, hθ, hφ, -⟩ := arc_angles hr h hm ha h0 h1 rfl rfl rfl rfl
  have hδ : ∀ i, i < 3 → m'.trajectory.delta i = fin (at_ p' i - at_ p i) := by
    intro i hi
    rw [mo.delta i hi, nx i hi, cur]
    unfold num at_; push_cast; rfl
  have hst : ∀ i, i < 3 → m'.trajectory.startPosition i = fin (at_ p i) := by
    intro i hi
    rw [mo.start i hi, cur]; rfl
  have hv : val m'.trajectory.length = L := by rw [hl]; rfl
  have hlen := mo.length hrho hφ hδ
  have hnn : ∀ (l : List Nat) (z : ℝ), 0 ≤ z → 0 ≤ l.foldl (fun s i => s + (at_ p' i - at_ p i) ^ 2) z := by
    intro l
    induction l with
    | nil => intro y hy; exact hy
    | cons j l ih => intro y hy; exact ih _ (by positivity)
  refine ⟨⟨hm.2, by rw [hl]; rfl, by rw [hv]; exact hL, fun i hi => ⟨_, hδ i hi⟩, ⟨rho, hrho, fun _ _ _ => hpos⟩, ⟨_, l0, .inl rfl⟩⟩,
    fun i hi => ⟨_, hst i hi⟩, fun _ => ⟨hne, ⟨_, h0⟩, ⟨_, h1⟩, ⟨_, hθ⟩, ⟨_, hφ⟩, ?_⟩⟩
  rw [hlen, hrho, hφ]
  show rho * |φ| ≤ √_
  apply Real.le_sqrt_of_sq_le
  have := hnn ((List.range 3).filter (fun i => decide (i ≠ m'.trajectory.arcAxis0 ∧ i ≠ m'.trajectory.arcAxis1))) 0 le_rfl
  linarith

/-- A programmed path can be executed and leads from the position before to the position after the block. -/
theorem travels_executable {p p' : Parser} {m m' : SimplifiedMotion} (hr : GCode.Rest p) (h : p.parseBlock m = .ok (p', m'))
    (hrep : Reported p'.result) (ht : Travels (p, p', m')) (hrho : ∃ rho : ℝ, m.trajectory.radius = fin rho) :
    Executable 3 m' ∧ ∀ i, i < 3 → place m' i 0 = at_ p i ∧ place m' i (val m'.trajectory.length) = at_ p' i := by
  obtain ⟨rho, hrho⟩ := hrho
  obtain ⟨hty, hp⟩ := ht
  have hm : Moved p' m' := ⟨reported_ne hrep, hty⟩
  have key : Executable 3 m' → Leads m' p.state.currentPosition p'.state.currentPosition → Executable 3 m' ∧ ∀ i, i < 3 →
      place m' i 0 = at_ p i ∧ place m' i (val m'.trajectory.length) = at_ p' i := by
    rintro hx ⟨L, hL, hl, hi⟩
    refine ⟨hx, fun i h3 => ?_⟩
    obtain ⟨e0, eL⟩ := hi i h3
    have hv : val m'.trajectory.length = L := by rw [hl]; rfl
    rw [(position_place hx h3 0).1] at e0
    rw [(position_place hx h3 L).1] at eL
    rw [hv]
    exact ⟨Num.fin.inj e0, Num.fin.inj eL⟩
  rcases hp with ⟨ha, hne⟩ | ⟨ha, hp⟩
  · exact key (straight_executable hr h hm ha hrho hne).1 (straight_leads hr h hm ha hrho rfl rfl hne).1
  · obtain ⟨c0, c1, rho', h0, h1, hrho', hpos, hs, he⟩ := hp
    exact key (arc_executable hr h hm ha ⟨c0, c1, rho', h0, h1, hrho', hpos, hs, he⟩)
      (arc_leads hr h hm ha h0 h1 hrho' hpos rfl rfl hs he)

/-! ## Executions -/

theorem connected_snoc {n : Nat} {r : SimplifiedMotion} : ∀ {rs : List SimplifiedMotion} {d : Nat → ℝ}, ExecSpec.Connected n d rs →
    (∀ i, i < n → place r i 0 = ExecSpec.endOf d rs i) → ExecSpec.Connected n d (rs ++ [r])
  | [], _, _, h => ⟨h, trivial⟩
  | _ :: _, _, ⟨h1, h2⟩, h => ⟨h1, connected_snoc h2 h⟩

theorem endOf_snoc {r : SimplifiedMotion} : ∀ {rs : List SimplifiedMotion} {d : Nat → ℝ},
    ExecSpec.endOf d (rs ++ [r]) = fun i => place r i (val r.trajectory.length)
  | [], _ => rfl
  | _ :: rs, _ => endOf_snoc (rs := rs)

/-- **C83**, first part: in every execution of the interpreter from reset (lines read and `parseBlock` called, in any order) in which all
motions program a path and no G53 occurs, the motions handed out can be executed, each starts where the one before ends, and they lead
from the origin to the final position of the interpreter. -/
theorem gcode_executable {p : Parser} {m₀ m : SimplifiedMotion} {log} (h : Run .reset m₀ log p m)
    (hm₀ : ∃ rho : ℝ, m₀.trajectory.radius = fin rho) (hl : Programs log) :
    (∀ r ∈ handed log, Executable 3 r) ∧ ExecSpec.Connected 3 (fun _ => 0) (handed log) ∧
      ∀ i, i < 3 → ExecSpec.endOf (fun _ => 0) (handed log) i = at_ p i := by
  induction h with
  | start => exact ⟨by simp [handed], trivial, fun i _ => by show (0 : ℝ) = ((0 : ℚ) : ℝ); simp⟩
  | line t _ hb ih =>
    have : at_ _ = at_ _ := congrArg (fun s : State => fun i => (s.currentPosition i : ℝ)) (getBlock_ok hb).2
    rw [this]
    exact ih hl
  | @parse log p m p' m' hrun hp ih =>
    obtain ⟨i1, i2, i3⟩ := ih fun e he => hl e (List.mem_append_left _ he)
    obtain ⟨h53, ht⟩ := hl (p, p', m') (by simp)
    by_cases hrep : Reported p'.result
    · obtain ⟨hx, hpl⟩ := travels_executable (run_rest hrun).1.1 hp hrep (ht hrep) (radius_finite hrun hm₀)
      have e : handed (log ++ [(p, p', m')]) = handed log ++ [m'] := by
        unfold handed
        rw [List.filter_append, List.filter_cons_of_pos (by simpa using hrep)]
        simp
      rw [e]
      refine ⟨fun r hr => ?_, connected_snoc i2 fun i hi => ?_, fun i hi => ?_⟩
      · rcases List.mem_append.1 hr with hr | hr
        · exact i1 r hr
        · rw [List.mem_singleton.1 hr]; exact hx
      · rw [i3 i hi]; exact (hpl i hi).1
      · rw [endOf_snoc]; exact (hpl i hi).2
    · have e : handed (log ++ [(p, p', m')]) = handed log := by
        unfold handed
        rw [List.filter_append, List.filter_cons_of_neg (by simpa using hrep)]
        simp
      rw [e]
      rcases parse_position hp with ⟨c, -⟩ | ⟨-, ⟨-, h | h⟩ | ⟨-, h, -⟩⟩
      · have : at_ p' = at_ p := by unfold at_; rw [c]
        rw [this]
        exact ⟨i1, i2, i3⟩
      · exact absurd h h53
      · exact absurd h hrep
      · exact absurd h hrep

/-! ## Execution -/

/-- The calls after `start()`, as in `Feeds`, for any motions. -/
def Feeding (M : Machine) (c : MotionCtrl M.kit) : List (MCall M) → Prop
  | [] => True
  | k :: ks =>
    (k = .calculate ∨ (∃ o, k = .override o) ∨
      ∃ r, k = push M r ∧ c.state = .running ∧ c.buffer.level < 32 ∧ (r.vFeed * c.overrides.feedOverride).Pos) ∧
    ∀ c' x, c.call k = some (c', x) → Feeding M c' ks

theorem feeds_of {M : Machine} : ∀ {ks : List (MCall M)} {c : MotionCtrl M.kit}, Feeding M c ks →
    (∀ r ∈ ks.filterMap requestOf, Executable M.n r) → Feeds M c ks
  | [], _, _, _ => trivial
  | k :: ks, c, ⟨h1, h2⟩, hx => by
    refine ⟨?_, fun c' x h => feeds_of (h2 c' x h) fun r hr => hx r ?_⟩
    · rcases h1 with h | h | ⟨r, h, h3, h4, h5⟩
      · exact .inl h
      · exact .inr (.inl h)
      · refine .inr (.inr ⟨r, h, h3, h4, hx r ?_, h5⟩)
        rw [h]
        exact List.mem_cons_self
    · rw [List.filterMap_cons]
      split
      · exact hr
      · exact List.mem_cons_of_mem _ hr

theorem requested_fst {M : Machine} : ∀ (ks : List (MCall M)) (ov : Num), (requested ov ks).map Prod.fst = ks.filterMap requestOf
  | [], _ => rfl
  | k :: ks, ov => by
    rw [requested, List.filterMap_cons]
    split <;> rename_i h <;> simp only [h]
    · rw [List.map_cons, requested_fst ks]
    · exact requested_fst ks _

theorem program_fst {M : Machine} (ov : Num) (rs : List SimplifiedMotion) (ks : List (MCall M)) :
    (program ov rs ks).map Prod.fst = rs ++ ks.filterMap requestOf := by
  unfold program
  rw [List.map_append, requested_fst, List.map_map]
  congr 1
  exact List.map_id' rs

/-- **C83**, on any machine with 3 axes: the motions that the interpreter hands out (in an execution from reset, all motions programming
a path) are appended to the controller of a machine standing at the origin, the first ones before the start and the others while it runs.
They are executed as in C74, and when the time is over the axes are at the final position of the interpreter. -/
theorem gcode_executed {M : Machine} (hM : M.Ok) (hn : M.n = 3) {δ : ℝ} (hm : CanFollow M δ (1 / 2))
    {p : Parser} {m₀ m : SimplifiedMotion} {blocks} (hrun : Run .reset m₀ blocks p m) (hm₀ : ∃ rho : ℝ, m₀.trajectory.radius = fin rho)
    (hl : Programs blocks) {c : MotionCtrl M.kit} (hi : Idle M δ c) (hc : ∀ i, i < 3 → c.machinePosition i = 0)
    {rs : List SimplifiedMotion} (hne : rs ≠ []) (hlen : rs.length ≤ 32) (ho : ∀ r ∈ rs, (r.vFeed * c.overrides.feedOverride).Pos)
    {ks : List (MCall M)} {c₀ c' : MotionCtrl M.kit} {log₀ log}
    (h₀ : c.run (rs.map (push M) ++ [.start]) = some (c₀, log₀)) (hf : Feeding M c₀ ks) (h : c₀.run ks = some (c', log))
    (hh : rs ++ ks.filterMap requestOf = handed blocks)
    (hall : ∀ x ∈ program c.overrides.feedOverride rs ks, Long M δ x.1 ∧ Brief M δ x.1 x.2 ∧ Reachable M x.1) :
    ∃ js : List Job, js.map (fun j => (j.r, j.f)) = program c.overrides.feedOverride rs ks ∧ (∀ j ∈ js, j.Ok M) ∧
      Executes M δ (fun _ => 0) js ((ticksOf log).length * δ) c' ∧
      (total js < ks.countP Call.isCalculate * δ → Idle M δ c' ∧ ∀ i, i < 3 →
        |at_ p i * M.stepsPerMm i - c'.machinePosition i| ≤ 1 / 2 + M.hysteresis + travel M δ i) := by
  obtain ⟨g1, g2, g3⟩ := gcode_executable hrun hm₀ hl
  rw [← hh] at g1 g2 g3
  obtain ⟨js, e1, e2, e3, e4⟩ := program_executed hM hm hi hne hlen
    (fun r hr => by rw [hn]; exact g1 r (List.mem_append_left _ hr)) ho (d := fun _ => 0)
    (fun axis ha => by
      rw [hc axis (hn ▸ ha)]
      have : 0 ≤ travel M δ axis := mul_nonneg (mul_nonneg (hM.vMax axis ha).le hm.width.le) (hm.steps axis ha)
      have := hm.hysteresis
      norm_num
      linarith)
    h₀ (feeds_of hf fun r hr => by rw [hn]; exact g1 r (List.mem_append_right _ hr)) h
    (by rw [program_fst, hn]; exact g2) hall
  refine ⟨js, e1, e2, e3, fun ht => ?_⟩
  obtain ⟨f1, f2⟩ := e4 ht
  refine ⟨f1, fun i hi => ?_⟩
  have := f2 i (hn ▸ hi)
  rw [program_fst, g3 i hi] at this
  exact this

/-! ## Straight programs on the cnc3axis machine -/

/-- The block programs a straight motion within 100 m of the origin, at least 0.0005 mm long in some axis. -/
structure StraightBlock (e : Parser × Parser × SimplifiedMotion) : Prop where
  type : e.2.2.type = .traverse ∨ e.2.2.type = .feedLinear
  far : ∃ i, i < 3 ∧ 1 / 2000 ≤ |at_ e.2.1 i - at_ e.1 i|
  close : ∀ i, i < 3 → |at_ e.1 i| ≤ 100000 ∧ |at_ e.2.1 i| ≤ 100000

theorem StraightBlock.travels {e : Parser × Parser × SimplifiedMotion} (h : StraightBlock e) : Travels e := by
  refine ⟨by rcases h.type with t | t <;> rw [t] <;> rfl, .inl ⟨?_, ?_⟩⟩
  · unfold IsArc; rcases h.type with t | t <;> rw [t] <;> simp
  · obtain ⟨i, hi, hf⟩ := h.far
    refine ⟨i, hi, fun he => ?_⟩
    unfold at_ at hf
    rw [he] at hf
    norm_num at hf

/-- A straight path of this machine: what the execution needs, and a bound of its duration. -/
theorem straight_fits {r : SimplifiedMotion} (hr : Executable 3 r) {x y : Nat → ℝ} {f : Num}
    (a0 : r.trajectory.arcAxis0 = 3) (a1 : r.trajectory.arcAxis1 = 3)
    (hd : ∀ i, i < 3 → r.trajectory.startPosition i = fin (x i) ∧ r.trajectory.delta i = fin (y i - x i))
    (hL : val r.trajectory.length = √((y 0 - x 0) ^ 2 + (y 1 - x 1) ^ 2 + (y 2 - x 2) ^ 2))
    (hfar : ∃ i, i < 3 ∧ 1 / 2000 ≤ |y i - x i|) (hclose : ∀ i, i < 3 → |x i| ≤ 100000 ∧ |y i| ≤ 100000)
    (hf : (fin (val r.trajectory.length / 30000)).le f = true) :
    Long cnc3axis (1 / 60000) r ∧ Brief cnc3axis (1 / 60000) r f ∧ Reachable cnc3axis r ∧
      ∀ j : Job, j.r = r → j.f = f → j.Ok cnc3axis → j.T ≤ 60000 := by
  have hlen := hr.moves.length
  have hpos := hr.moves.pos
  set L := val r.trajectory.length with hLdef
  have hplace : ∀ i, i < 3 → ∀ s, place r i s = x i + (y i - x i) / L * s := by
    intro i hi s
    unfold place
    simp only
    rw [if_neg (by omega), if_neg (by omega), (hd i hi).1, (hd i hi).2, hlen]
    rfl
  have hsq : L ^ 2 = (y 0 - x 0) ^ 2 + (y 1 - x 1) ^ 2 + (y 2 - x 2) ^ 2 := by
    rw [hL, Real.sq_sqrt (by positivity)]
  have hcomp : ∀ i, i < 3 → |y i - x i| ≤ L := by
    intro i hi
    apply abs_le_of_sq_le_sq _ hpos.le
    rw [hsq]
    have := sq_nonneg (y 0 - x 0); have := sq_nonneg (y 1 - x 1); have := sq_nonneg (y 2 - x 2)
    interval_cases i <;> linarith
  have hdiff : ∀ i, i < 3 → (y i - x i) ^ 2 ≤ 200000 ^ 2 := by
    intro i hi
    obtain ⟨h1, h2⟩ := hclose i hi
    rw [abs_le] at h1 h2
    apply sq_le_sq'  <;> linarith
  have hL6 : L ≤ 400000 := by
    apply le_of_sq_le_sq _ (by norm_num)
    rw [hsq]
    have := hdiff 0 (by norm_num); have := hdiff 1 (by norm_num); have := hdiff 2 (by norm_num)
    linarith
  have hdir : ∀ i, i < 3 → |r.direction i| ≤ 1 := by
    intro i hi
    unfold SimplifiedMotion.direction
    rw [if_neg (by omega), (hd i hi).2, hlen]
    simp only
    rw [abs_div, abs_of_pos hpos, div_le_one hpos]
    exact hcomp i hi
  -- the speed
  obtain ⟨v, hv0, hv30, hvf, hvL, hvT⟩ : ∃ v : ℝ, 0 < v ∧ v ≤ 30 ∧ (fin v).le f = true ∧ v ^ 2 ≤ 200 * L ∧ L / 30000 ≤ v := by
    have hs : L / 30000 ≤ √(200 * L) := by
      apply Real.le_sqrt_of_sq_le
      nlinarith
    have hs' : 0 < √(200 * L) := Real.sqrt_pos.2 (by linarith)
    have hsL : √(200 * L) ^ 2 = 200 * L := Real.sq_sqrt (by linarith)
    have hL30 : 0 < L / 30000 := by positivity
    cases f with
    | fin g =>
      rw [le_fin, decide_eq_true_eq] at hf
      refine ⟨min (min g 30) (√(200 * L)), lt_min (lt_min (by linarith) (by norm_num)) hs',
        (min_le_left _ _).trans (min_le_right _ _), ?_, ?_, le_min (le_min hf (by linarith)) hs⟩
      · rw [le_fin, decide_eq_true_eq]
        exact (min_le_left _ _).trans (min_le_left _ _)
      · exact (pow_le_pow_left₀ (le_min (le_min (by linarith) (by norm_num)) hs'.le) (min_le_right _ _) 2).trans_eq hsL
    | posInf =>
      refine ⟨min 30 (√(200 * L)), lt_min (by norm_num) hs', min_le_left _ _, by simp [Num.le], ?_, le_min (by linarith) hs⟩
      exact (pow_le_pow_left₀ (le_min (by norm_num) hs'.le) (min_le_right _ _) 2).trans_eq hsL
    | negInf => simp [Num.le] at hf
    | nan => simp [Num.le] at hf
  have hall : Allowed cnc3axis r v 200 := by
    refine ⟨hv0, by norm_num, fun i hi => ?_, fun i hi => ?_, fun i hi => ?_, fun i hi hax => ?_⟩
    · exact (mul_le_of_le_one_right hv0.le (hdir i hi)).trans hv30
    · exact mul_le_of_le_one_right (by norm_num) (hdir i hi)
    · refine (mul_le_of_le_one_right (by norm_num) (hdir i hi)).trans (by norm_num [cnc3axis])
    · have : i < 3 := hi
      omega
  refine ⟨?_, ⟨v, 200, hall, hvf, hvL, ?_⟩, ?_, ?_⟩
  · obtain ⟨i, hi, h⟩ := hfar
    refine ⟨i, hi, by norm_num [cnc3axis], L, hpos.le, le_rfl, ?_⟩
    rw [hplace i hi, hplace i hi, div_mul_cancel₀ _ hpos.ne']
    norm_num [cnc3axis]
    linarith
  · have : 2 * L / v ≤ 60000 := by
      rw [div_le_iff₀ hv0]; linarith
    linarith
  · intro i hi s h0 h1
    rw [hplace i hi]
    obtain ⟨c1, c2⟩ := hclose i hi
    have hs1 : s / L ≤ 1 := (div_le_one hpos).2 h1
    have hs0 : 0 ≤ s / L := div_nonneg h0 hpos.le
    have e : x i + (y i - x i) / L * s = (1 - s / L) * x i + s / L * y i := by field_simp; ring
    have : |x i + (y i - x i) / L * s| ≤ 100000 := by
      rw [e]
      calc |(1 - s / L) * x i + s / L * y i| ≤ |(1 - s / L) * x i| + |s / L * y i| := abs_add_le _ _
        _ = (1 - s / L) * |x i| + s / L * |y i| := by
          rw [abs_mul, abs_mul, abs_of_nonneg hs0, abs_of_nonneg (by linarith : (0 : ℝ) ≤ 1 - s / L)]
        _ ≤ (1 - s / L) * 100000 + s / L * 100000 :=
          add_le_add (mul_le_mul_of_nonneg_left c1 (by linarith)) (mul_le_mul_of_nonneg_left c2 hs0)
        _ = 100000 := by ring
    rw [abs_le] at this
    unfold Machine.InRange
    rw [abs_le]
    norm_num [cnc3axis]
    constructor <;> linarith
  · intro j hj hjf hok
    have := hok.brisk v 200 (hj ▸ hall) (hjf ▸ hvf) (by unfold Job.L; rw [hj]; exact hvL)
    unfold Job.L at this
    rw [hj, ← hLdef] at this
    by_contra hlt
    push Not at hlt
    nlinarith

/-- The calls of an execution from reset. -/
theorem run_calls {p : Parser} {m₀ m : SimplifiedMotion} {log} (h : Run .reset m₀ log p m)
    (hm₀ : ∃ rho : ℝ, m₀.trajectory.radius = fin rho) : ∀ e ∈ log, GCode.Rest e.1 ∧ ∃ m, e.1.parseBlock m = .ok (e.2.1, e.2.2) ∧
      ∃ rho : ℝ, m.trajectory.radius = fin rho := by
  induction h with
  | start => simp
  | line t _ hb ih => exact ih
  | parse hrun hp ih =>
    intro e he
    rcases List.mem_append.1 he with he | he
    · exact ih e he
    · rw [List.mem_singleton.1 he]
      exact ⟨(run_rest hrun).1.1, _, hp, radius_finite hrun hm₀⟩

theorem cnc3axis_ok : cnc3axis.Ok := by constructor <;> intros <;> norm_num [cnc3axis]

theorem cnc3axis_follow : CanFollow cnc3axis (1 / 60000) (1 / 2) :=
  ⟨by norm_num, by norm_num [cnc3axis], fun _ _ => by norm_num [cnc3axis], fun _ _ => by norm_num [travel, cnc3axis]⟩

theorem pos_of_le {x : ℝ} (hx : 0 < x) {f : Num} (h : (fin x).le f = true) : f.Pos := by
  cases f with
  | fin y => rw [le_fin, decide_eq_true_eq] at h; exact hx.trans_le h
  | posInf => trivial
  | negInf => simp [Num.le] at h
  | nan => simp [Num.le] at h

/-- **C83** on the cnc3axis machine with its 60000 ticks per second, for straight programs: any number of lines with G0 and G1 motions, each
at least 0.0005 mm long, within 100 m, and possible within 30000 seconds at its feed rate. The motions are executed as in C74, and after
60000 seconds per motion at the latest the controller has stopped with an empty queue and each axis is within 13/20 of a step (0.00325 mm)
of the final position of the interpreter. -/
theorem gcode_straight {p : Parser} {m : SimplifiedMotion} {blocks} (hrun : Run .reset (.fresh 3) blocks p m)
    (hl : ∀ e ∈ blocks, ¬ HasCode e.1.block.words 'G' 530 ∧ (Reported e.2.1.result → StraightBlock e))
    {c : MotionCtrl cnc3axis.kit} (hi : Idle cnc3axis (1 / 60000) c) (hc : ∀ i, i < 3 → c.machinePosition i = 0)
    {rs : List SimplifiedMotion} (hne : rs ≠ []) (hlen : rs.length ≤ 32)
    {ks : List (MCall cnc3axis)} {c₀ c' : MotionCtrl cnc3axis.kit} {log₀ log}
    (h₀ : c.run (rs.map (push cnc3axis) ++ [.start]) = some (c₀, log₀)) (hf : Feeding cnc3axis c₀ ks)
    (h : c₀.run ks = some (c', log)) (hh : rs ++ ks.filterMap requestOf = handed blocks)
    (hfeed : ∀ x ∈ program c.overrides.feedOverride rs ks, (fin (val x.1.trajectory.length / 30000)).le x.2 = true) :
    ∃ js : List Job, js.map (fun j => (j.r, j.f)) = program c.overrides.feedOverride rs ks ∧ (∀ j ∈ js, j.Ok cnc3axis) ∧
      Executes cnc3axis (1 / 60000) (fun _ => 0) js ((ticksOf log).length * (1 / 60000)) c' ∧
      ((handed blocks).length * 60000 < ks.countP Call.isCalculate * (1 / 60000 : ℝ) →
        c'.state = .stopped ∧ c'.buffer.level = 0 ∧ ∀ i, i < 3 → |at_ p i * 200 - c'.machinePosition i| ≤ 13 / 20) := by
  have hm₀ : ∃ rho : ℝ, (SimplifiedMotion.fresh 3).trajectory.radius = fin rho := ⟨0, rfl⟩
  have hP : Programs blocks := fun e he => ⟨(hl e he).1, fun hr => ((hl e he).2 hr).travels⟩
  have key : ∀ x ∈ program c.overrides.feedOverride rs ks, Executable 3 x.1 ∧ Long cnc3axis (1 / 60000) x.1 ∧
      Brief cnc3axis (1 / 60000) x.1 x.2 ∧ Reachable cnc3axis x.1 ∧
      ∀ j : Job, j.r = x.1 → j.f = x.2 → j.Ok cnc3axis → j.T ≤ 60000 := by
    intro x hx
    have hmem : x.1 ∈ handed blocks := by
      rw [← hh, ← program_fst c.overrides.feedOverride rs ks]
      exact List.mem_map_of_mem hx
    unfold handed at hmem
    obtain ⟨e, he, hex⟩ := List.mem_map.1 hmem
    obtain ⟨he1, he2⟩ := List.mem_filter.1 he
    have hrep : Reported e.2.1.result := by simpa using he2
    have hs := (hl e he1).2 hrep
    obtain ⟨hr, m', hp, rho, hrho⟩ := run_calls hrun hm₀ e he1
    obtain ⟨tm, tp⟩ := hs.travels
    have hna : ¬ IsArc e.2.2 := by unfold IsArc; rcases hs.type with t | t <;> rw [t] <;> simp
    obtain ⟨b1, b2, b3, b4, b5⟩ := straight_executable hr hp ⟨reported_ne hrep, tm⟩ hna hrho
      (tp.elim And.right fun h => absurd h.1 hna)
    have hfd := hfeed x hx
    rw [← hex] at hfd ⊢
    exact ⟨b1, straight_fits b1 b2 b3 b4 b5 hs.far hs.close hfd⟩
  obtain ⟨js, e1, e2, e3, e4⟩ := gcode_executed cnc3axis_ok rfl cnc3axis_follow hrun hm₀ hP hi hc hne hlen
    (fun r hr => by
      have hx : (r, r.vFeed * c.overrides.feedOverride) ∈ program c.overrides.feedOverride rs ks :=
        List.mem_append_left _ (List.mem_map_of_mem (f := fun r : SimplifiedMotion => (r, r.vFeed * c.overrides.feedOverride)) hr)
      exact pos_of_le (div_pos (key _ hx).1.moves.pos (by norm_num)) (hfeed _ hx))
    h₀ hf h hh (fun x hx => ⟨(key x hx).2.1, (key x hx).2.2.1, (key x hx).2.2.2.1⟩)
  refine ⟨js, e1, e2, e3, fun ht => ?_⟩
  have hT : ∀ j ∈ js, j.T ≤ 60000 := fun j hj =>
    (key (j.r, j.f) (by rw [← e1]; exact List.mem_map_of_mem (f := fun j : Job => (j.r, j.f)) hj)).2.2.2.2 j rfl rfl (e2 j hj)
  have hlenj : js.length = (handed blocks).length := by
    rw [← hh, ← program_fst c.overrides.feedOverride rs ks, ← e1]; simp
  have htot : total js ≤ (handed blocks).length * 60000 := by
    rw [← hlenj]
    unfold total
    have := List.sum_le_card_nsmul (js.map Job.T) 60000 (by simpa using hT)
    rw [List.length_map, nsmul_eq_mul] at this
    exact this
  obtain ⟨f1, f2⟩ := e4 (lt_of_le_of_lt htot ht)
  refine ⟨f1.state, f1.level, fun i hi => ?_⟩
  have := f2 i hi
  norm_num [cnc3axis, travel] at this ⊢
  linarith

/-! ## Example -/

theorem traverse_speed {p p' : Parser} {m m' : SimplifiedMotion} (hr : GCode.Rest p) (h : p.parseBlock m = .ok (p', m'))
    (hm : Moved p' m') (ht : m'.type = .traverse) : m'.vFeed = posInf := by
  obtain ⟨q, mi, mo, -⟩ := moved_motion hr h hm
  rw [mo.speed.1]
  unfold calcSpeed
  rw [ht]

/-- The lines "G0 X10" and "G1 Y5 F600". -/
theorem two_lines : ∃ blocks p m, Run .reset (.fresh 3) blocks p m ∧ at_ p 0 = 10 ∧ at_ p 1 = 5 ∧ at_ p 2 = 0 ∧
    (∀ e ∈ blocks, ¬ HasCode e.1.block.words 'G' 530 ∧ (Reported e.2.1.result → StraightBlock e)) ∧
    ∃ r1 r2 : SimplifiedMotion, handed blocks = [r1, r2] ∧ r1.vFeed = posInf ∧ r2.vFeed = fin 10 ∧
      val r1.trajectory.length = 10 ∧ val r2.trajectory.length = 5 ∧
      ∀ e ∈ blocks, (e.2.2 = r1 ∧ at_ e.1 0 = 0 ∧ at_ e.1 1 = 0 ∧ at_ e.1 2 = 0 ∧ at_ e.2.1 0 = 10 ∧ at_ e.2.1 1 = 0 ∧ at_ e.2.1 2 = 0) ∨
        (e.2.2 = r2 ∧ at_ e.1 0 = 10 ∧ at_ e.1 1 = 0 ∧ at_ e.1 2 = 0 ∧ at_ e.2.1 0 = 10 ∧ at_ e.2.1 1 = 5 ∧ at_ e.2.1 2 = 0) := by
  obtain ⟨p1, p', m', g1, w1, s1, r1, e1, he1⟩ := runs_line .reset (t := "G0 X10") (ws := [⟨71, 0, 0⟩, ⟨88, 10, 0⟩])
    (by decide +kernel) (by decide +kernel) (by decide +kernel) (by decide +kernel) (.fresh 3)
  obtain ⟨p2, p'', m'', g2, w2, s2, r2, e2, he2⟩ := runs_line p' (t := "G1 Y5 F600") (ws := [⟨71, 1, 10⟩, ⟨89, 5, 0⟩, ⟨70, 600, 0⟩])
    (by decide +kernel) (by decide +kernel) (by decide +kernel) (by decide +kernel) m'
  -- first line
  obtain ⟨t1, q1⟩ := traverse_of r1.rest e1 he1 (by rw [w1]; decide +kernel) (by rw [w1]; decide +kernel) (by rw [w1]; decide +kernel)
  obtain ⟨mv1, rep1⟩ := moved_of r1.rest e1 he1 (by rw [w1]; decide +kernel) (by rw [w1]; decide +kernel) (by rw [w1]; decide +kernel)
  have ax := fun {i} (hi : i < 3) => axis_at r1.rest e1 mv1 s1 (by rw [w1]; decide +kernel) (i := i) hi
  have x0 := (ax (i := 0) (by decide)).1 10 (by rw [w1]; decide +kernel)
  have x1 := (ax (i := 1) (by decide)).2.1 (by rw [w1]; decide +kernel)
  have x2 := (ax (i := 2) (by decide)).2.1 (by rw [w1]; decide +kernel)
  obtain ⟨b1, b2, -⟩ := modal_settings_partial r1.rest e1 he1 (by rw [w1]; decide +kernel)
  rw [w1] at b1 b2
  have f1 : p'.state.modal.feedRate = .G94 := by rw [b1.feed.kept (by decide +kernel), s1]; rfl
  have u1 : p'.state.modal.unit = .G21 := by rw [b2.unit.kept (by decide +kernel), s1]; rfl
  have d1 : p'.state.modal.distance = .G90 := by rw [b2.distance.kept (by decide +kernel), s1]; rfl
  have l1 := fun {i} (hi : i < 3) => (moved_axis r1.rest e1 mv1 (i := i) hi).2
  have y0 := (l1 (i := 0) (by decide)).1 10 (by rw [w1]; decide +kernel)
  have y2 := (l1 (i := 2) (by decide)).2 (by rw [w1]; decide +kernel)
  -- second line
  have hrun1 : Run .reset (.fresh 3) [(p1, p', m')] p' m' := .parse (.line _ .start g1) e1
  have hrun2 : Run .reset (.fresh 3) ([(p1, p', m')] ++ [(p2, p'', m'')]) p'' m'' := .parse (.line _ hrun1 g2) e2
  have hf : FeedBy p2.block.words (p2.state.letterValue .F) 600 := by
    have hv : HasVal p2.block.words 'F' 600 := by rw [w2]; decide +kernel
    refine ⟨fun x hx _ => ?_, fun hn => absurd (hn 600 hv) (by norm_num), fun hn => absurd (hn 600 hv) (by norm_num)⟩
    rw [w2] at hv hx
    exact val_unique (l := .F) (by decide +kernel) (by simp) hv hx
  obtain ⟨-, h2⟩ := feed_required_partial r2.rest e2 he2 (by rw [w2]; decide +kernel) (by rw [w2]; decide +kernel)
    (by rw [w2]; decide +kernel) hf
  obtain ⟨q2, t2, sp, -⟩ := h2 (by norm_num)
  obtain ⟨b3, b4, -⟩ := modal_settings_partial r2.rest e2 he2 (by rw [w2]; decide +kernel)
  rw [w2, s2] at b3 b4
  have f2 : p''.state.modal.feedRate = .G94 := by rw [b3.feed.kept (by decide +kernel), f1]
  have u2 : p''.state.modal.unit = .G21 := by rw [b4.unit.kept (by decide +kernel), u1]
  have d2 : p''.state.modal.distance = .G90 := by rw [b4.distance.kept (by decide +kernel), d1]
  have sp2 := (sp f2).1
  rw [u2] at sp2
  have rep2 : Reported p''.result := .inl q2
  have mv2 : Moved p'' m'' := ⟨by rw [q2]; decide, by rw [t2]; rfl⟩
  have hor : ∀ s i, p2.state.wcsOrigin s i = 0 := fun s i => by rw [s2, machine_origin hrun1]
  have l2 := fun {i} (hi : i < 3) => moved_axis r2.rest e2 mv2 (i := i) hi
  have z0 : p''.state.currentPosition 0 = 10 := by
    obtain ⟨c1, -, c3⟩ := l2 (i := 0) (by decide)
    rw [c1, hor, d2, u2, c3 (by rw [w2]; decide +kernel), s2, y0]
    simp [mm]
  have z1 : p''.state.currentPosition 1 = 5 := by
    obtain ⟨c1, c2, -⟩ := l2 (i := 1) (by decide)
    rw [c1, hor, d2, u2, c2 5 (by rw [w2]; decide +kernel)]
    simp [mm]
  have z2 : p''.state.currentPosition 2 = 0 := by
    obtain ⟨c1, -, c3⟩ := l2 (i := 2) (by decide)
    rw [c1, hor, d2, u2, c3 (by rw [w2]; decide +kernel), s2, y2, s1]
    show (0 : ℚ) + (_ + mm .G21 0) = 0
    simp [mm]
  have A1 : at_ p1 0 = 0 ∧ at_ p1 1 = 0 ∧ at_ p1 2 = 0 := by
    unfold at_; rw [s1]
    refine ⟨?_, ?_, ?_⟩ <;> (show ((0 : ℚ) : ℝ) = 0; simp)
  have A2 : at_ p' 0 = 10 ∧ at_ p' 1 = 0 ∧ at_ p' 2 = 0 := by
    unfold at_; rw [x0, x1, x2]; norm_num
  have A2' : at_ p2 = at_ p' := by unfold at_; rw [s2]
  have A3 : at_ p'' 0 = 10 ∧ at_ p'' 1 = 5 ∧ at_ p'' 2 = 0 := by
    unfold at_; rw [z0, z1, z2]; norm_num
  have S1 : StraightBlock (p1, p', m') := by
    refine ⟨.inl t1, ⟨0, by decide, ?_⟩, fun i hi => ?_⟩
    · show _ ≤ |at_ p' 0 - at_ p1 0|
      rw [A1.1, A2.1]; norm_num
    · show |at_ p1 i| ≤ _ ∧ |at_ p' i| ≤ _
      interval_cases i
      · rw [A1.1, A2.1]; norm_num
      · rw [A1.2.1, A2.2.1]; norm_num
      · rw [A1.2.2, A2.2.2]; norm_num
  have S2 : StraightBlock (p2, p'', m'') := by
    refine ⟨.inr t2, ⟨1, by decide, ?_⟩, fun i hi => ?_⟩
    · show _ ≤ |at_ p'' 1 - at_ p2 1|
      rw [A2', A2.2.1, A3.2.1]; norm_num
    · show |at_ p2 i| ≤ _ ∧ |at_ p'' i| ≤ _
      rw [A2']
      interval_cases i
      · rw [A2.1, A3.1]; norm_num
      · rw [A2.2.1, A3.2.1]; norm_num
      · rw [A2.2.2, A3.2.2]; norm_num
  have N : ∀ {m : SimplifiedMotion}, m.type = .traverse ∨ m.type = .feedLinear → ¬ IsArc m := by
    intro m h; unfold IsArc; rcases h with t | t <;> rw [t] <;> simp
  have L1 := (straight_executable r1.rest e1 mv1 (N (.inl t1)) (rho := 0) rfl
    (S1.travels.2.elim And.right fun h => absurd h.1 (N (.inl t1)))).2.2.2.2
  obtain ⟨rho, hrho⟩ := radius_finite hrun1 ⟨0, rfl⟩
  have L2 := (straight_executable r2.rest e2 mv2 (N (.inr t2)) hrho
    (S2.travels.2.elim And.right fun h => absurd h.1 (N (.inr t2)))).2.2.2.2
  rw [A1.1, A1.2.1, A1.2.2, A2.1, A2.2.1, A2.2.2] at L1
  rw [A2', A2.1, A2.2.1, A2.2.2, A3.1, A3.2.1, A3.2.2] at L2
  refine ⟨_, p'', m'', hrun2, A3.1, A3.2.1, A3.2.2, ?_, m', m'', ?_, traverse_speed r1.rest e1 mv1 t1, ?_, ?_, ?_, ?_⟩
  · intro e he
    have he' : e = (p1, p', m') ∨ e = (p2, p'', m'') := by simpa using he
    rcases he' with rfl | rfl
    · exact ⟨by show ¬ HasCode p1.block.words _ _; rw [w1]; decide +kernel, fun _ => S1⟩
    · exact ⟨by show ¬ HasCode p2.block.words _ _; rw [w2]; decide +kernel, fun _ => S2⟩
  · unfold handed
    rw [List.filter_append, List.filter_cons_of_pos (by simpa using rep1), List.filter_cons_of_pos (by simpa using rep2)]
    rfl
  · rw [sp2]
    show fin (((600 : ℚ) : ℝ) / 60) = _
    norm_num
  · rw [L1, show (10 - 0 : ℝ) ^ 2 + (0 - 0) ^ 2 + (0 - 0) ^ 2 = 10 ^ 2 by norm_num, Real.sqrt_sq (by norm_num)]
  · rw [L2, show (10 - 10 : ℝ) ^ 2 + (5 - 0) ^ 2 + (0 - 0) ^ 2 = 5 ^ 2 by norm_num, Real.sqrt_sq (by norm_num)]
  · intro e he
    have he' : e = (p1, p', m') ∨ e = (p2, p'', m'') := by simpa using he
    rcases he' with rfl | rfl
    · exact .inl ⟨rfl, A1.1, A1.2.1, A1.2.2, A2.1, A2.2.1, A2.2.2⟩
    · refine .inr ⟨rfl, ?_⟩
      rw [A2']
      exact ⟨A2.1, A2.2.1, A2.2.2, A3.1, A3.2.1, A3.2.2⟩

/-- C83: the two lines on a new controller of the cnc3axis machine: the axes end within a step of 2000, 1000 and 0 steps. -/
example (n : Nat) (hn : 7200000000 < n) : ∃ blocks p m, Run .reset (.fresh 3) blocks p m ∧ at_ p 0 = 10 ∧ at_ p 1 = 5 ∧
    ∃ c' log, (fresh cnc3axis.kit).run (.configure 375 (fin (1 / 60000)) ::
      ((handed blocks).map (push cnc3axis) ++ [.start] ++ List.replicate n .calculate)) = some (c', log) ∧
      c'.state = .stopped ∧ c'.buffer.level = 0 ∧ |(2000 : ℝ) - c'.machinePosition 0| < 1 ∧ |(1000 : ℝ) - c'.machinePosition 1| < 1 ∧
      |(0 : ℝ) - c'.machinePosition 2| < 1 := by
  obtain ⟨blocks, p, m, hrun, a0, a1, a2, hl, r1, r2, hh, v1, v2, L1, L2, -⟩ := two_lines
  refine ⟨blocks, p, m, hrun, a0, a1, ?_⟩
  obtain ⟨c', log, hr, -⟩ := motion_history_returns (K := cnc3axis.kit) (.configure 375 (fin (1 / 60000)) ::
    ((handed blocks).map (push cnc3axis) ++ [.start] ++ List.replicate n .calculate))
  refine ⟨c', log, hr, ?_⟩
  obtain ⟨c₁, k₁, k₂, hc, hr', -⟩ := run_split (K := cnc3axis.kit) [.configure 375 (fin (1 / 60000))]
    ((handed blocks).map (push cnc3axis) ++ [.start] ++ List.replicate n .calculate) hr
  simp only [run, call, Option.map_some, Option.some.injEq, Prod.mk.injEq] at hc
  obtain ⟨rfl, -⟩ := hc
  obtain ⟨c₀, l₁, l₂, h0, h1, -⟩ := run_split (K := cnc3axis.kit) ((handed blocks).map (push cnc3axis) ++ [.start])
    (List.replicate n .calculate) hr'
  have hfeed : ((fresh cnc3axis.kit).configure 375 (fin (1 / 60000))).overrides.feedOverride = fin 1 := rfl
  have hreq : (List.replicate n (.calculate : MCall cnc3axis)).filterMap requestOf = [] := by
    rw [List.filterMap_replicate]; rfl
  have hfe : Feeding cnc3axis c₀ (List.replicate n .calculate) := by
    have key : ∀ (n : Nat) (c : MotionCtrl cnc3axis.kit), Feeding cnc3axis c (List.replicate n .calculate) := by
      intro n
      induction n with
      | zero => intro c; trivial
      | succ n ih => intro c; exact ⟨.inl rfl, fun c' _ _ => ih c'⟩
    exact key n c₀
  obtain ⟨js, -, -, -, hend⟩ := gcode_straight hrun hl (idle_configured cnc3axis 375 (1 / 60000)) (fun _ _ => rfl) (rs := handed blocks)
    (by rw [hh]; simp) (by rw [hh]; simp) h0 hfe h1 (by rw [hreq, List.append_nil]) (by
      unfold program
      rw [requested_calculate, List.append_nil, hh, hfeed]
      intro x hx
      have hx' : x = (r1, r1.vFeed * fin 1) ∨ x = (r2, r2.vFeed * fin 1) := by simpa using hx
      rcases hx' with rfl | rfl
      · show (fin (val r1.trajectory.length / 30000)).le (r1.vFeed * fin 1) = true
        rw [v1, show posInf * fin 1 = posInf from by show Num.infOfSign 1 = _; simp [Num.infOfSign]]
        rfl
      · show (fin (val r2.trajectory.length / 30000)).le (r2.vFeed * fin 1) = true
        rw [v2, L2, fin_mul, le_fin]; norm_num)
  rw [hh, List.countP_replicate] at hend
  obtain ⟨g1, g2, g3⟩ := hend (by
    have : (7200000000 : ℝ) < n := by exact_mod_cast hn
    simp [Call.isCalculate]
    linarith)
  have h0 := g3 0 (by decide)
  have h1 := g3 1 (by decide)
  have h2 := g3 2 (by decide)
  rw [a0] at h0; rw [a1] at h1; rw [a2] at h2
  norm_num at h0 h1 h2 ⊢
  exact ⟨g1, g2, by linarith, by linarith, by linarith⟩

end Moovr.Props
