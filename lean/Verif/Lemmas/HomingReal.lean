import Verif.Lemmas.HomingWaits
import Verif.Lemmas.TickInv
import Verif.Model.HomingTarget
/-! Helper lemmas: the main program with the real motion arithmetic. -/
namespace Moovr
open Num ExecSpec

/-! ## The request -/

theorem homingRequest_executable {M : Machine} {m : HomingMove} (hs : ∀ i, i < M.n → 0 < M.stepsPerMm i) (ha : m.axis < M.n)
    (ho : m.offset ≠ 0) : Executable M.n (M.homingRequest m) := by
  have hr : (m.offset : ℝ) ≠ 0 := by exact_mod_cast ho
  refine ⟨⟨rfl, rfl, abs_pos.2 hr, fun i _ => ?_, ⟨0, rfl, ?_⟩, ⟨m.axis, ha, .inr (.inr ⟨_, hr, ?_⟩)⟩⟩, fun i hi => ?_, ?_⟩
  · by_cases h : i = m.axis
    · exact ⟨_, if_pos h⟩
    · exact ⟨0, if_neg h⟩
  · rintro i hi (h | h) <;> exact absurd (show i = M.n from h) hi.ne
  · exact if_pos rfl
  · exact ⟨_, fin_div (hs i hi).ne'⟩
  · rintro (h | h) <;> exact absurd (show M.n < M.n from h) (lt_irrefl _)

theorem homingRequest_place {M : Machine} {m : HomingMove} (hs : ∀ i, i < M.n → 0 < M.stepsPerMm i) {i : Nat} (hi : i < M.n) (s : ℝ) :
    place (M.homingRequest m) i s =
      m.position i / M.stepsPerMm i + (if i = m.axis then (m.offset : ℝ) / |(m.offset : ℝ)| * s else 0) := by
  unfold place
  simp only
  have h4 : (M.homingRequest m).trajectory.arcAxis0 = M.n := rfl
  have h5 : (M.homingRequest m).trajectory.arcAxis1 = M.n := rfl
  rw [if_neg (by omega), if_neg (by omega)]
  have h1 : (M.homingRequest m).trajectory.startPosition i = fin (m.position i / M.stepsPerMm i) := fin_div (hs i hi).ne'
  have h2 : (M.homingRequest m).trajectory.length = fin |(m.offset : ℝ)| := rfl
  have h3 : (M.homingRequest m).trajectory.delta i = if i = m.axis then fin m.offset else fin 0 := rfl
  rw [h1, h2, h3]
  split <;> simp [val]

theorem homingRequest_still {M : Machine} {m : HomingMove} (ho : m.offset ≠ 0) {x : Path} {i : Nat} (hi : i < M.n) (h : i ≠ m.axis) :
    M.kit.isMoving (MotionItem.setPath x (M.homingRequest m)) i = false := by
  have hr : |(m.offset : ℝ)| ≠ 0 := abs_ne_zero.2 (by exact_mod_cast ho)
  show (!((Trajectory.ofReq (M.homingRequest m).trajectory).deltaRealTime i).eq (fin 0)) = false
  have h1 : (Trajectory.ofReq (M.homingRequest m).trajectory).deltaRealTime i = fin 0 / fin |(m.offset : ℝ)| := by
    show (if i = M.n ∨ i = M.n then _ else (if i = m.axis then fin m.offset else fin 0) / fin |(m.offset : ℝ)|) = _
    rw [if_neg (by omega), if_neg h]
  rw [h1, fin_div hr, zero_div]
  simp [Num.eq]

/-! ## The queue belongs to its requests -/

namespace MotionCtrl

/-- Each place of the queue holds the path of its request, or was never used. -/
def Faithful {M : Machine} (b : MotionBuffer M.kit) : Prop := ∀ i, match (b.cells i).request with
  | none => (b.cells i).traj = Path.zero M.n
  | some r => ∃ x, (b.cells i).traj = MotionItem.setPath x r

theorem Faithful.upd {M : Machine} {b : MotionBuffer M.kit} (h : Faithful b) (j : Nat) (f : Motion M.kit → M.kit.Prof) :
    Faithful (b.updProf j f) := by
  intro i
  have := h i
  simp only [MotionBuffer.updProf]
  by_cases hi : i = j
  · subst hi; simpa using this
  · simpa [hi] using this

theorem Faithful.optimizePair {M : Machine} {c : MotionCtrl M.kit} (h : Faithful c.buffer) (j : Nat) :
    Faithful (c.optimizePair j).buffer := by
  unfold MotionCtrl.optimizePair
  simp only
  refine .upd (.upd ?_ _ _) _ _
  split
  · exact ((h.upd _ _).upd _ _).upd _ _
  · exact (h.upd _ _).upd _ _

theorem Faithful.optimize {M : Machine} {c : MotionCtrl M.kit} (h : Faithful c.buffer) : Faithful c.optimize.buffer := by
  have hf : ∀ (l : List Nat) (c : MotionCtrl M.kit), Faithful c.buffer → Faithful (l.foldl MotionCtrl.optimizePair c).buffer := by
    intro l
    induction l with
    | nil => exact fun _ h => h
    | cons j l ih => exact fun c h => ih _ (h.optimizePair j)
  unfold MotionCtrl.optimize
  split
  · exact h
  · split
    · exact h.upd c.buffer.head fun m => M.kit.optimizeAt c.overrides c.strategy c.time.timeInMotion m.traj m.prof
    · split <;> exact hf _ _ h

theorem Faithful.append {M : Machine} {c : MotionCtrl M.kit} (h : Faithful c.buffer) (r : M.kit.Req) :
    Faithful (c.append r).buffer := by
  unfold MotionCtrl.append
  split
  · intro i
    simp only
    by_cases hi : i = c.buffer.push.2
    · rw [if_pos hi]; exact ⟨_, rfl⟩
    · rw [if_neg hi]; exact h i
  · exact h

/-- What never changes in the main program, and the queue. -/
structure Steady {M : Machine} (width : Num) (c : MotionCtrl M.kit) : Prop where
  ovr : c.overrides.feedOverride = fin 1
  width : c.time.minStepPulseWidth = width
  queue : Faithful c.buffer
  head : c.buffer.head < 32

theorem steady_optimize {M : Machine} {w : Num} {c : MotionCtrl M.kit} (h : Steady w c) : Steady w c.optimize :=
  have hs := sameButProf_optimize c
  ⟨by rw [hs.ovr]; exact h.ovr, by rw [hs.time]; exact h.width, h.queue.optimize, by rw [hs.head]; exact h.head⟩

theorem steady_start {M : Machine} {w : Num} {c : MotionCtrl M.kit} (h : Steady w c) : Steady w c.start := by
  unfold start
  split
  · exact steady_optimize ⟨h.ovr, h.width, h.queue, h.head⟩
  · exact h

theorem steady_stop {M : Machine} {w : Num} {c : MotionCtrl M.kit} (h : Steady w c) : Steady w c.stop :=
  steady_optimize ⟨h.ovr, h.width, h.queue, h.head⟩

theorem steady_flush {M : Machine} {w : Num} {c : MotionCtrl M.kit} (h : Steady w c) : Steady w c.flushMotionBuffer := by
  unfold flushMotionBuffer
  split
  · exact ⟨h.ovr, h.width, h.queue, by simp [MotionBuffer.flush]⟩
  · exact h

theorem steady_append {M : Machine} {w : Num} {c : MotionCtrl M.kit} (h : Steady w c) (r : M.kit.Req) : Steady w (c.append r) := by
  have hq := h.queue.append r
  unfold append at hq ⊢
  split
  · rename_i hf
    rw [if_pos hf] at hq
    exact ⟨h.ovr, h.width, hq, h.head⟩
  · exact ⟨h.ovr, h.width, h.queue, h.head⟩

theorem steady_settle {M : Machine} {w : Num} (fuel : Nat) : ∀ {c : MotionCtrl M.kit} {r}, Steady w c → settle fuel c = some r →
    Steady w r.1 := by
  induction fuel with
  | zero => intro c r _ h; simp [settle] at h
  | succ fuel ih =>
    intro c r hc h
    unfold settle at h
    split at h
    · split at h
      · exact ih (c := c.nextMotion) ⟨hc.ovr, hc.width, hc.queue, Nat.mod_lt _ (by decide)⟩ h
      · simp only [Option.some.injEq] at h
        subst h
        exact ⟨hc.ovr, hc.width, hc.queue, Nat.mod_lt _ (by decide)⟩
    · simp only [Option.some.injEq] at h
      subst h
      exact ⟨hc.ovr, hc.width, hc.queue, hc.head⟩

theorem steady_tick {M : Machine} {w : Num} {c c' : MotionCtrl M.kit} {t} (hc : Steady w c) (h : c.tick = some (c', t)) :
    Steady w c' := by
  unfold tick at h
  simp only at h
  split at h
  · simp only [Option.map_eq_some_iff, Prod.mk.injEq] at h
    obtain ⟨x, hx, rfl, -⟩ := h
    refine steady_settle _ ?_ hx
    unfold sampleAndCheckStop
    simp only
    split <;> exact ⟨hc.ovr, hc.width, hc.queue, hc.head⟩
  · simp only [Option.some.injEq, Prod.mk.injEq] at h
    obtain ⟨rfl, -⟩ := h
    exact ⟨hc.ovr, hc.width, hc.queue, hc.head⟩

theorem steady_calc {M : Machine} {w : Num} {c : MotionCtrl M.kit} {r} (hc : Steady w c) (h : c.calcNext = some r) : Steady w r.1 :=
  (calcLoop_inv (P := fun _ c => Steady w c) (fun _ _ _ h => ⟨h.ovr, h.width, h.queue, h.head⟩) (fun _ _ _ _ h h' => steady_tick h h') _
    (k := 0) hc h).1

/-! ## One motion in the queue -/

/-- A tick with one motion moves only the axes that take part in it. -/
theorem tick_still {K : MotionKit} {c c' : MotionCtrl K} {t} (hl : c.state ≠ .stopped → c.buffer.level = 1) (h : c.tick = some (c', t))
    {a : Nat} (ha : K.isMoving c.buffer.getHead.traj a = false) : c'.machinePosition a = c.machinePosition a := by
  unfold tick at h
  simp only at h
  split at h
  · rename_i hrun
    simp only [Option.map_eq_some_iff, Prod.mk.injEq] at h
    obtain ⟨x, hx, rfl, -⟩ := h
    have hl := hl (by simpa [isRunning] using hrun)
    have key : ∀ d : MotionCtrl K, d.buffer = c.buffer → d.machinePosition = c.machinePosition →
        settle (d.buffer.level + 1) d = some x → x.1.machinePosition a = c.machinePosition a := by
      intro d hb hp hx
      unfold settle at hx
      rw [if_neg (by rw [hb]; omega : ¬ d.buffer.level > 1)] at hx
      split at hx
      · simp only [Option.some.injEq] at hx
        subst hx
        exact congrFun hp a
      · simp only [Option.some.injEq] at hx
        subst hx
        have hdec : d.decision a = none := by
          unfold decision
          simp only
          rw [if_neg]
          rw [hb, ha]
          simp
        show (match d.decision a with
          | some .forward => d.machinePosition a + 1
          | some .backward => d.machinePosition a - 1
          | none => d.machinePosition a) = _
        rw [hdec]
        exact congrFun hp a
    refine key _ ?_ ?_ hx
    · unfold sampleAndCheckStop; simp only; split <;> rfl
    · unfold sampleAndCheckStop; simp only; split <;> rfl
  · simp only [Option.some.injEq, Prod.mk.injEq] at h
    obtain ⟨rfl, -⟩ := h
    rfl

/-- What stays the same while one motion is made: the queue until it stops, and the axes that do not take part. -/
structure Single {K : MotionKit} (b : MotionBuffer K) (a : Nat) (x : Int) (c : MotionCtrl K) : Prop where
  queue : c.state ≠ .stopped → c.buffer = b
  pos : c.machinePosition a = x

theorem single_tick {K : MotionKit} {b : MotionBuffer K} (hb : b.level = 1) {a : Nat} (ha : K.isMoving b.getHead.traj a = false)
    {x : Int} {c c' : MotionCtrl K} {t} (hc : Single b a x c) (h : c.tick = some (c', t)) : Single b a x c' := by
  by_cases hs : c.state = .stopped
  · have ht : c.tick = some ({ c with signals := c.signals.next }, ⟨fun _ => none, [], none⟩) := by
      unfold tick; simp [isRunning, hs]
    rw [ht] at h
    simp only [Option.some.injEq, Prod.mk.injEq] at h
    obtain ⟨rfl, -⟩ := h
    exact ⟨fun h => absurd hs h, hc.pos⟩
  · have hq := hc.queue hs
    have hl : c.buffer.level = 1 := by rw [hq]; exact hb
    refine ⟨fun hs' => ?_, ?_⟩
    · rcases tick_single c hs hl _ h with ⟨⟨-, h1, -⟩ | ⟨h1, -⟩, h2⟩
      · rw [h2 h1, hq]
      · exact absurd h1 hs'
    · rw [tick_still (fun _ => hl) h (by rw [hq]; exact ha)]
      exact hc.pos

theorem single_run {K : MotionKit} {b : MotionBuffer K} (hb : b.level = 1) {a : Nat} (ha : K.isMoving b.getHead.traj a = false)
    {x : Int} {c c' : MotionCtrl K} {n : Nat} {log} (hc : Single b a x c) (h : c.run (List.replicate n .calculate) = some (c', log)) :
    Single b a x c' :=
  (run_inv (P := fun _ c => Single b a x c) (fun _ _ _ h => ⟨h.queue, h.pos⟩) (fun _ _ _ _ h h' => single_tick hb ha h h') n (k := 0)
    hc h).1

end MotionCtrl

namespace Board
open MotionCtrl

/-- Filling is a number of calculations. -/
theorem fill_run {K : MotionKit} (k : Nat) : ∀ {b b' : Board K}, b.fill k = some b' →
    ∃ log, b.ctrl.run (List.replicate k .calculate) = some (b'.ctrl, log) := by
  induction k with
  | zero =>
    intro b b' h
    simp only [fill, Option.some.injEq] at h
    subst h
    exact ⟨[], rfl⟩
  | succ k ih =>
    intro b b' h
    unfold fill at h
    split at h
    · cases h
    · rename_i r hr
      obtain ⟨log, hl⟩ := ih h
      rw [withCtrl_ctrl] at hl
      refine ⟨(.calculate, ⟨r.1.events.drop b.ctrl.events.length, some r.2.1, r.2.2⟩) :: log, ?_⟩
      rw [List.replicate_succ, MotionCtrl.run]
      simp only [call, hr, Option.map_some, hl]

/-- What never changes in the main program. -/
theorem fill_steady {M : Machine} {w : Num} (k : Nat) : ∀ {b b' : Board M.kit}, Steady w b.ctrl → b.fill k = some b' → Steady w b'.ctrl := by
  induction k with
  | zero =>
    intro b b' hb h
    simp only [fill, Option.some.injEq] at h
    subst h
    exact hb
  | succ k ih =>
    intro b b' hb h
    unfold fill at h
    split at h
    · cases h
    · rename_i r hr
      exact ih (by rw [withCtrl_ctrl]; exact steady_calc hb hr) h

theorem exec_steady {M : Machine} {w : Num} (t : Target M.kit) {b : Board M.kit} (hb : Steady w b.ctrl) (x : HomingAct) :
    Steady w (exec t b x).ctrl := by
  cases x <;> simp only [exec]
  case push e => exact hb
  case stop => rw [withCtrl_ctrl]; exact steady_stop hb
  case flush => rw [withCtrl_ctrl]; exact steady_flush hb
  case append m => rw [withCtrl_ctrl]; exact steady_append hb _
  case go => rw [withCtrl_ctrl]; exact steady_start hb
  all_goals exact hb

theorem withHomer_steady {M : Machine} {w : Num} (t : Target M.kit) {b : Board M.kit} (hb : Steady w b.ctrl) (r : Homer × List HomingAct) :
    Steady w (b.withHomer t r).ctrl := by
  unfold withHomer
  have : ∀ (l : List HomingAct) (b : Board M.kit), Steady w b.ctrl → Steady w (l.foldl (exec t) b).ctrl := by
    intro l
    induction l with
    | nil => exact fun _ h => h
    | cons x l ih => exact fun b h => ih _ (exec_steady t h x)
  exact this _ _ hb

theorem sample_ctrl {K : MotionKit} (b : Board K) (p : Ports) : (b.sample p).ctrl = b.ctrl := by
  unfold sample
  have : ∀ (l : List Nat) (b : Board K), (l.foldl sampleInput b).ctrl = b.ctrl := by
    intro l
    induction l with
    | nil => exact fun _ => rfl
    | cons i l ih =>
      intro b
      rw [List.foldl_cons, ih]
      unfold sampleInput
      simp only
      split <;> rfl
  exact this _ _

theorem loop_steady {M : Machine} {w : Num} (t : Target M.kit) {b b' : Board M.kit} {r : Round} (hb : Steady w b.ctrl)
    (h : b.loop t r = some b') : Steady w b'.ctrl := by
  unfold loop at h
  split at h
  · cases h
  · rename_i b₁ h₁
    simp only [Option.some.injEq] at h
    subst h
    have h1 := fill_steady _ hb h₁
    have h2 : Steady w (if r.expired then b₁.sample r.ports else b₁).ctrl := by
      split
      · rw [sample_ctrl]; exact h1
      · exact h1
    generalize (if r.expired then b₁.sample r.ports else b₁) = b₂ at h2
    unfold handle
    simp only
    split
    · exact withHomer_steady t (b := (b₂.onQueue .hasEvents).onQueue .pop) h2 _
    · exact h2

theorem loops_steady {M : Machine} {w : Num} (t : Target M.kit) (rs : List Round) : ∀ {b b' : Board M.kit}, Steady w b.ctrl →
    b.loops t rs = some b' → Steady w b'.ctrl := by
  induction rs with
  | nil =>
    intro b b' hb h
    simp only [loops, Option.some.injEq] at h
    subst h
    exact hb
  | cons r rs ih =>
    intro b b' hb h
    unfold loops at h
    split at h
    · cases h
    · rename_i b₁ h₁
      exact ih (loop_steady t hb h₁) h

theorem setup_steady {M : Machine} (t : Target M.kit) (p : Ports) : Steady t.width (setup t p).ctrl := by
  unfold setup
  simp only
  refine withHomer_steady t ?_ _
  rw [withCtrl_ctrl, withCtrl_ctrl]
  exact ⟨rfl, rfl, fun _ => rfl, show 0 < 32 by decide⟩

end Board
end Moovr
