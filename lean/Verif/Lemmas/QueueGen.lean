import Verif.Lemmas.ExecuteRun
import Verif.Lemmas.TickSeq
/-!
# Filling and starting the queue, for any arithmetic

The counterparts of `Verif.Lemmas.ExecuteQueue` for an arbitrary kit.
-/
namespace Moovr
open MotionCtrl MotionSpec
variable {K : MotionKit} {α : Type}

theorem Queue.push {R : Motion K → α → Prop} {c : MotionCtrl K} {l : List α} (h : Queue R c.buffer l) (hl : l.length < 32) {r : K.Req}
    {a : α} (hr : ∀ m : Motion K, R ⟨some r, K.setTraj m.traj m.prof r, K.setProf m.traj m.prof r c.overrides c.strategy⟩ a) :
    Queue R (c.append r).buffer (l ++ [a]) ∧ (c.append r).time = c.time ∧ (c.append r).state = c.state ∧
    (c.append r).overrides = c.overrides ∧ (c.append r).machinePosition = c.machinePosition := by
  have hlv := h.level
  have hhd := h.head
  have hnf : (!c.buffer.isFull) = true := by simp [MotionBuffer.isFull, MotionBuffer.length, hlv, hl]
  have e : c.append r = { c with buffer := { c.buffer with
      level := u32add c.buffer.level 1
      cells := fun j => if j = (c.buffer.head + c.buffer.level) % 32 then
        ⟨some r, K.setTraj (c.buffer.cells ((c.buffer.head + c.buffer.level) % 32)).traj
            (c.buffer.cells ((c.buffer.head + c.buffer.level) % 32)).prof r,
          K.setProf (c.buffer.cells ((c.buffer.head + c.buffer.level) % 32)).traj
            (c.buffer.cells ((c.buffer.head + c.buffer.level) % 32)).prof r c.overrides c.strategy⟩
        else c.buffer.cells j } } := by
    unfold MotionCtrl.append
    rw [if_pos hnf]
    rfl
  rw [e]
  refine ⟨⟨hhd, ?_, by simp; omega, ?_⟩, rfl, rfl, rfl, rfl⟩
  · show u32add c.buffer.level 1 = _
    rw [u32add_of_lt (by omega), hlv]; simp
  · intro k hk
    simp only [List.length_append, List.length_singleton] at hk
    show R (if _ then _ else _) _
    rcases Nat.lt_or_ge k l.length with hk' | hk'
    · rw [if_neg (by show ¬ (c.buffer.head + k) % 32 = _; omega), List.getElem_append_left hk']
      exact h.cell k hk'
    · have : k = l.length := by omega
      subst this
      rw [if_pos (by show (c.buffer.head + _) % 32 = _; rw [hlv])]
      simp only [List.getElem_append_right le_rfl, Nat.sub_self, List.getElem_singleton]
      exact hr _

/-- What planning does to the cells of a queue: `B` cells with known limits, `W` those of them that have not begun, `R` planned
ones. -/
structure Plans (B W R : Motion K → α → Prop) (o : K.Ovr) (t : K.Time) : Prop where
  wait : ∀ m a, W m a → B m a
  ready : ∀ m a, R m a → B m a
  left : ∀ m a, B m a → R { m with prof := K.optimize o .maximizeSpeed m.traj (K.endAtRest m.prof) } a
  right : ∀ m a, B m a → R { m with prof := K.optimize o .maximizeSpeed m.traj (K.startAtRest m.prof) } a
  first : ∀ m a, W m a →
    R { m with prof := K.optimize o .maximizeSpeed m.traj (K.optimizeAt o .maximizeSpeed t m.traj (K.endAtRest m.prof)) } a
  only : ∀ m a, W m a → R { m with prof := K.optimizeAt o .maximizeSpeed t m.traj m.prof } a

theorem Plans.pairs {B W R : Motion K → α → Prop} {l : List α} : ∀ (n : Nat) {c : MotionCtrl K},
    Plans B W R c.overrides c.time.timeInMotion → c.strategy = .maximizeSpeed → Queue B c.buffer l → (n = 0 ∨ n < l.length) →
    (∀ k (hk : k < l.length), n < k → R (c.buffer.cells ((c.buffer.head + k) % 32)) l[k]) →
    (∀ h0 : 0 < l.length, if n = 0 then R (c.buffer.cells ((c.buffer.head + 0) % 32)) l[0] else
      W (c.buffer.cells ((c.buffer.head + 0) % 32)) l[0]) →
    Queue R ((List.range n).reverse.foldl optimizePair c).buffer l := by
  intro n
  induction n with
  | zero =>
    intro c hp hs h hn hr h0
    refine ⟨h.head, h.level, h.max, fun k hk => ?_⟩
    rcases Nat.eq_zero_or_pos k with rfl | hk0
    · simpa using h0 hk
    · exact hr k hk hk0
  | succ n ih =>
    intro c hp hs h hn hr h0
    have hmax := h.max; have hhd := h.head
    have hlt : n + 1 < l.length := by omega
    rw [List.range_succ, List.reverse_append, List.reverse_singleton, List.singleton_append, List.foldl_cons]
    have hsb := sameButProf_pair c n
    have hne : (c.buffer.head + n) % 32 ≠ (c.buffer.head + n + 1) % 32 := by omega
    have hW := h0 (by omega)
    rw [if_neg (by omega)] at hW
    have cell : ∀ k (hk : k < l.length),
        ((k = n ∨ k = n + 1) ∧ R ((c.optimizePair n).buffer.cells (((c.optimizePair n).buffer.head + k) % 32)) l[k]) ∨
        (¬ (k = n ∨ k = n + 1) ∧ (c.optimizePair n).buffer.cells (((c.optimizePair n).buffer.head + k) % 32) =
          c.buffer.cells ((c.buffer.head + k) % 32)) := by
      intro k hk
      rw [hsb.head, optimizePair_cells c n hne, hs]
      by_cases h1 : k = n + 1
      · left
        refine ⟨.inr h1, ?_⟩
        subst h1
        rw [if_pos (by rw [Nat.add_assoc])]
        exact hp.right _ _ (h.cell _ hk)
      · rw [if_neg (by omega)]
        by_cases h2 : k = n
        · left
          refine ⟨.inl h2, ?_⟩
          subst h2
          rw [if_pos rfl]
          by_cases hk0 : k = 0
          · subst hk0
            simp only [if_true]
            exact hp.first _ _ hW
          · simp only [if_neg hk0]
            exact hp.left _ _ (h.cell _ hk)
        · right
          rw [if_neg (by omega)]
          exact ⟨by omega, rfl⟩
    refine ih (c := c.optimizePair n) (by rw [hsb.ovr, hsb.time]; exact hp) (by rw [hsb.strategy]; exact hs) ?_ (by omega) ?_ ?_
    · refine ⟨by rw [hsb.head]; exact hhd, by rw [hsb.level]; exact h.level, hmax, fun k hk => ?_⟩
      rcases cell k hk with ⟨-, hr'⟩ | ⟨-, e⟩
      · exact hp.ready _ _ hr'
      · rw [e]; exact h.cell k hk
    · intro k hk hk'
      rcases cell k hk with ⟨-, hr'⟩ | ⟨hn', e⟩
      · exact hr'
      · rw [e]; exact hr k hk (by omega)
    · intro hl0
      rcases cell 0 hl0 with ⟨hn', hr'⟩ | ⟨hn', e⟩
      · rw [if_pos (by omega)]; exact hr'
      · rw [if_neg (by omega), e]; exact hW

/-- Starting a queue plans all its motions. -/
theorem Plans.start {B W R : Motion K → α → Prop} {l : List α} {c : MotionCtrl K} (hp : Plans B W R c.overrides c.time.timeInMotion)
    (h : Queue W c.buffer l) (hne : l ≠ []) :
    Queue R c.start.buffer l ∧ c.start.time = c.time ∧ c.start.state = .running ∧ c.start.overrides = c.overrides ∧
      c.start.machinePosition = c.machinePosition := by
  have hlen : 0 < l.length := List.length_pos_iff.2 hne
  have hemp : (!c.buffer.isEmpty) = true := by
    simp [MotionBuffer.isEmpty, h.level]; omega
  obtain ⟨c₁, hc₁⟩ : ∃ c₁, c₁ = ({ c.pushEvent .motionStarted with state := .running } : MotionCtrl K) := ⟨_, rfl⟩
  have e : c.start = c₁.optimize := by rw [hc₁]; unfold MotionCtrl.start; rw [if_pos hemp]
  have hb : c₁.buffer = c.buffer := by rw [hc₁]; rfl
  have ho₁ : c₁.overrides = c.overrides := by rw [hc₁]; rfl
  have ht₁ : c₁.time = c.time := by rw [hc₁]; rfl
  have hst : c₁.strategy = .maximizeSpeed := by rw [hc₁]; rfl
  have hs := sameButProf_optimize c₁
  rw [e]
  refine ⟨?_, by rw [hs.time, ht₁], by rw [hs.state, hc₁], by rw [hs.ovr, ho₁], by rw [hs.pos, hc₁]; rfl⟩
  rw [← hb] at h
  rw [← ho₁, ← ht₁] at hp
  have hhd := h.head
  have h0 := h.cell 0 hlen
  unfold MotionCtrl.optimize
  rw [if_neg (by rw [h.level]; omega)]
  by_cases h1 : c₁.buffer.level = 1
  · rw [if_pos h1]
    refine ⟨hhd, h.level, h.max, fun k hk => ?_⟩
    have hk0 : k = 0 := by rw [h.level] at h1; omega
    subst hk0
    have hm : (c₁.buffer.head + 0) % 32 = c₁.buffer.head := by omega
    simp only [MotionBuffer.updProf]
    rw [hm] at h0 ⊢
    rw [if_pos rfl, hst]
    exact hp.only _ _ h0
  · rw [if_neg h1, hst]
    simp only
    have hl2 : l.length ≠ 1 := by rw [← h.level]; exact h1
    have hmax := h.max
    have hjn : junctions c₁.buffer.level = l.length - 1 := by
      rw [h.level]; unfold junctions; rw [if_pos (by omega)]
    rw [hjn]
    refine hp.pairs _ hst (h.mono fun m a _ => hp.wait m a) (.inr (by omega)) (fun k hk hk' => by omega) fun _ => ?_
    rw [if_neg (by omega)]
    exact h0

/-- A property kept by every tick is kept by a calculation. -/
theorem calcLoop_keeps {P : MotionCtrl K → Prop} (hs : ∀ (c : MotionCtrl K) s, P c → P (c.withSignals s))
    (ht : ∀ (c c' : MotionCtrl K) t, P c → c.tick = some (c', t) → P c') (fuel : Nat) : ∀ {c c' : MotionCtrl K} {e ts}, P c →
    calcLoop fuel c = some (c', e, ts) → P c' := by
  induction fuel with
  | zero => intro c c' e ts _ h; simp [calcLoop] at h
  | succ fuel ih =>
    intro c c' e ts hp h
    rw [calcLoop] at h
    split at h
    · simp at h
    · rename_i c₁ t h1
      have hp1 := ht _ _ _ hp h1
      split at h
      · simp only [Option.some.injEq, Prod.mk.injEq] at h
        obtain ⟨rfl, rfl, rfl⟩ := h
        exact hs _ _ hp1
      · simp only [Option.map_eq_some_iff, Prod.exists, Prod.mk.injEq] at h
        obtain ⟨c₂, e₂, ts₂, h2, rfl, rfl, rfl⟩ := h
        exact ih hp1 h2

end Moovr
