import Verif.Spec.Pins
import Verif.Lemmas.Drive
import Verif.Props.StepSignals
/-! Helper lemmas: the updates of the pins and the waveform. -/
namespace Moovr.PinSpec
open MotionSpec PulseSpec StepQueueSpec StepBuffer

/-- The pattern after further updates. -/
def level (v : BitVec 32) (pins : List (Nat × BitVec 32)) (t : Nat) : BitVec 32 := pins.foldl (fun v p => if p.1 ≤ t then p.2 else v) v

theorem level_early {pins : List (Nat × BitVec 32)} {t : Nat} (h : ∀ p ∈ pins, t < p.1) (v : BitVec 32) : level v pins t = v := by
  induction pins with
  | nil => rfl
  | cons p pins ih =>
    have h1 := h p (by simp)
    show level (if p.1 ≤ t then p.2 else v) pins t = v
    rw [if_neg (by omega)]
    exact ih fun q hq => h q (List.mem_cons_of_mem _ hq)

/-- The updates `pins` show the outputs `es`, the first one `es[0].timeBefore` after `t₀`. -/
def Shows : Nat → List (Nat × BitVec 32) → List Step → Prop
  | _, [], _ => True
  | _, _ :: _, [] => False
  | t₀, p :: pins, e :: es => p.1 = t₀ + e.timeBefore ∧ p.2 = e.signals ∧ 1 ≤ e.timeBefore ∧ Shows p.1 pins es

theorem Shows.later {pins : List (Nat × BitVec 32)} : ∀ {t₀ : Nat} {es : List Step}, Shows t₀ pins es → ∀ p ∈ pins, t₀ < p.1 := by
  induction pins with
  | nil => intro _ _ _ p hp; simp at hp
  | cons q pins ih =>
    intro t₀ es h p hp
    cases es with
    | nil => exact h.elim
    | cons e es =>
      obtain ⟨h1, h2, h3, h4⟩ := h
      rcases List.mem_cons.1 hp with rfl | hp
      · omega
      · have := ih h4 p hp; omega

theorem Shows.level {pins : List (Nat × BitVec 32)} : ∀ {t₀ : Nat} {es : List Step} (v : BitVec 32), Shows t₀ pins es →
    ∀ {i : Nat}, (∃ p ∈ pins, t₀ + 1 + i ≤ p.1) →
      (expand v (es.map fun e => (e.timeBefore, e.signals)))[i]? = some (level v pins (t₀ + 1 + i)) := by
  induction pins with
  | nil => intro _ _ _ _ i h; simp at h
  | cons q pins ih =>
    intro t₀ es v h i hi
    cases es with
    | nil => exact h.elim
    | cons e es =>
      obtain ⟨h1, h2, h3, h4⟩ := h
      have hl := h4.later
      simp only [List.map_cons, expand]
      have e1 : PinSpec.level v (q :: pins) (t₀ + 1 + i) = PinSpec.level (if q.1 ≤ t₀ + 1 + i then q.2 else v) pins (t₀ + 1 + i) := rfl
      rw [e1]
      rcases Nat.lt_trichotomy (i + 1) e.timeBefore with c | c | c
      · rw [if_neg (by omega), level_early (fun p hp => by have := hl p hp; omega)]
        rw [List.append_assoc, List.getElem?_append_left (by rw [List.length_replicate]; omega), List.getElem?_replicate]
        rw [if_pos (by omega)]
      · rw [if_pos (by omega), level_early (fun p hp => by have := hl p hp; omega)]
        rw [List.append_assoc, List.getElem?_append_right (by rw [List.length_replicate]; omega)]
        rw [List.length_replicate, show i - (e.timeBefore - 1) = 0 by omega]
        simp [h2]
      · rw [if_pos (by omega), h2]
        have hex : ∃ p ∈ pins, q.1 + 1 + (i - e.timeBefore) ≤ p.1 := by
          obtain ⟨p, hp, hp'⟩ := hi
          rcases List.mem_cons.1 hp with rfl | hp
          · omega
          · exact ⟨p, hp, by omega⟩
        have := ih e.signals h4 hex
        rw [show q.1 + 1 + (i - e.timeBefore) = t₀ + 1 + i by omega] at this
        rw [← this, List.getElem?_append_right (by simp; omega)]
        congr 1
        simp; omega

/-- From the facts about each update. -/
theorem shows_of {W : List Step} {pins : List (Nat × BitVec 32)} (hlen : pins.length ≤ W.length)
    (hs : ∀ k (h : k < pins.length) (h' : k < W.length), pins[k].2 = W[k].signals)
    (hg : ∀ k (h : k + 2 < pins.length) (h' : k + 2 < W.length), pins[k + 2].1 = pins[k + 1].1 + W[k + 2].timeBefore)
    (h1 : ∀ e ∈ W, 1 ≤ e.timeBefore) (m : Nat) : ∀ k (h : k + 1 < pins.length), pins.length = k + 2 + m →
      Shows pins[k + 1].1 (pins.drop (k + 2)) (W.drop (k + 2)) := by
  induction m with
  | zero =>
    intro k h hm
    rw [List.drop_eq_nil_of_le (by omega)]; trivial
  | succ m ih =>
    intro k h hm
    have hk : k + 2 < pins.length := by omega
    have hk' : k + 2 < W.length := by omega
    rw [List.drop_eq_getElem_cons hk, List.drop_eq_getElem_cons hk']
    exact ⟨hg k hk hk', hs (k + 2) hk hk', h1 _ (List.getElem_mem hk'), ih (k + 1) hk (by omega)⟩

/-- The pulses among the first samples of the lines are the commands before the last one. -/
theorem pulse_prefix (cs : List Cmd) : ∀ (i : Nat) (hi : i < cs.length), Spaced cs → ∀ (p x D : Bool), (p = true → x = false) →
    (p = true → ∀ c cs', cs = c :: cs' → c = none) →
    pulseCount x (((stepLine p cs).zip (dirLine D cs)).take (i + 1)) =
      (if p then (if D then -1 else 1) else 0) + ((cs.take i).map stepsOf).sum := by
  induction cs with
  | nil => intro i hi; simp at hi
  | cons c cs ih =>
    intro i hi hsp p x D hx hp
    have hsp' : Spaced cs := by
      cases cs with
      | nil => trivial
      | cons d cs => exact hsp.2
    cases i with
    | zero =>
      cases c with
      | none =>
        cases p with
        | false => simp [stepLine, dirLine, pulseCount]
        | true => simp [stepLine, dirLine, pulseCount, hx rfl]
      | some d =>
        have hp' : p = false := by
          cases p with
          | false => rfl
          | true => have := hp rfl (some d) cs rfl; cases this
        subst hp'
        simp [stepLine, dirLine, pulseCount]
    | succ i =>
      have hi' : i < cs.length := by simpa using hi
      cases c with
      | none =>
        have h1 := ih i hi' hsp' false p D (by simp) (by simp)
        simp only [stepLine, dirLine, Option.isNone_none, Bool.and_true, Option.isSome_none, Option.map_none, Option.getD_none,
          List.zip_cons_cons, List.take_succ_cons, pulseCount, h1, List.map_cons, stepsOf, List.sum_cons]
        cases p with
        | false => simp
        | true => simp [hx rfl]
      | some d =>
        have hp' : p = false := by
          cases p with
          | false => rfl
          | true => have := hp rfl (some d) cs rfl; cases this
        subst hp'
        have h1 := ih i hi' hsp' true false d.line (by simp) (by
          intro _ c' cs' he
          subst he
          have := hsp.1
          cases c' with
          | none => rfl
          | some x => simp at this)
        simp only [stepLine, dirLine, Option.isNone_some, Bool.and_false, Option.isSome_some, Option.map_some, Option.getD_some,
          List.zip_cons_cons, List.take_succ_cons, pulseCount, h1, List.map_cons, List.sum_cons]
        cases d <;> simp [Dir.line, stepsOf]

theorem pulseCount_quiet (n : Nat) (l : List (Bool × Bool)) : pulseCount false (List.replicate n (false, false) ++ l) = pulseCount false l := by
  induction n with
  | zero => rfl
  | succ n ih => simp [List.replicate_succ, pulseCount, ih]

end Moovr.PinSpec

namespace Moovr.Drive
open StepQueueSpec StepBuffer MotionSpec PulseSpec PinSpec
variable {K : MotionKit} {b₀ b : StepBuffer}

theorem written_of_lost (hi : InitReturns b₀ b) (h1 : b₀.minimumTotalTime = 1500) (h2 : b₀.minimumLevel = 4) (fops : List FillLoop.Op) :
    ((loop₀ b).run fops).lost = [] → (trace prime ((loop₀ b).calls fops)).written = prime ++ written (loop₀ b) fops := by
  obtain ⟨s1, s2, s3, s4⟩ := FillLoop.shipped_priming hi h1 h2
  change _ = prime at s4
  have hrep : Rep b ⟨prime, 0⟩ := by rw [← s4]; exact rep_priming hi
  induction fops using List.reverseRecOn' with
  | nil => intro _; rfl
  | snoc ops x ih =>
    intro hl
    rw [FillLoop.run_snoc] at hl
    have htr := rep_after hrep ((loop₀ b).calls ops)
    rw [← show ((loop₀ b).run ops).buffer = b.after ((loop₀ b).calls ops) from FillLoop.buffer_run _ ops] at htr
    rw [FillLoop.calls_snoc, FillLoop.written_snoc]
    cases x with
    | check =>
      have : ((loop₀ b).run ops).lost = [] := by
        simp only [FillLoop.step] at hl; split at hl <;> exact hl
      simpa [FillLoop.calls, written] using ih this
    | interrupt =>
      have e : ((loop₀ b).run ops).calls [.interrupt] = [.read] := rfl
      have e2 : written ((loop₀ b).run ops) [.interrupt] = [] := rfl
      rw [e, e2, trace_snoc, List.append_nil, ← ih hl]
      simp only [StepQueueSpec.next]; split <;> rfl
    | put s =>
      by_cases hc : ((loop₀ b).run ops).committed = true
      · have e : ((loop₀ b).run ops).calls [.put s] = [.write s] := by simp [FillLoop.calls, hc]
        have e2 : written ((loop₀ b).run ops) [.put s] = [s] := by simp [written, e]
        simp only [FillLoop.step, hc, if_true] at hl
        split at hl
        · rename_i hlt
          rw [e, e2, trace_snoc, ← List.append_assoc, ← ih hl]
          have := htr.level_eq
          have hlt' : ((loop₀ b).run ops).buffer.level < 256 := hlt
          simp only [StepQueueSpec.next]
          rw [if_pos (show (trace prime ((loop₀ b).calls ops)).waiting < StepQueueSpec.capacity by unfold StepQueueSpec.capacity StepQueueSpec.Trace.waiting; omega)]
        · simp at hl
      · have e : ((loop₀ b).run ops).calls [.put s] = [] := by simp [FillLoop.calls, hc]
        have e2 : written ((loop₀ b).run ops) [.put s] = [] := by simp [written, e]
        rw [e, e2, List.append_nil, List.append_nil]
        exact ih (by simpa [FillLoop.step, hc] using hl)

/-- The updates after the fourth show the outputs of the controller; the first four show nothing. -/
theorem Well.shows (hi : InitReturns b₀ b) (h1 : b₀.minimumTotalTime = 1500) (h2 : b₀.minimumLevel = 4) {w : K.Time} {s : Drive K}
    (h : Well b w s) (hl : s.lost = []) {t₀ : Nat} {x : BitVec 32} (h3 : s.out.pins[3]? = some (t₀, x)) :
    Shows t₀ (s.out.pins.drop 4) (entriesOf s.log) ∧ ∀ p ∈ s.out.pins.take 4, p.2 = 0 := by
  obtain ⟨fops, pops, hsim, hfed, -⟩ := h
  obtain ⟨s1, s2, s3, s4⟩ := FillLoop.shipped_priming hi h1 h2
  change _ = prime at s4
  have hrep : Rep b ⟨prime, 0⟩ := by rw [← s4]; exact rep_priming hi
  have hinv := PinOutput.inv_run hrep pops hfed fun e he => by
    have := hsim.times e he; exact ⟨this.1, by omega⟩
  rw [hsim.pin] at hinv
  have hw : (trace prime (PinOutput.calls pops)).written = prime ++ written (loop₀ b) fops := by
    rw [hsim.same]
    exact written_of_lost hi h1 h2 fops (by rw [hsim.fill]; exact hl)
  have htimes := hsim.times
  have hpins := hinv.len
  have hreads := hinv.rep.reads_le
  have hsg := hinv.sigs
  have hgp := hinv.gaps
  rw [hw] at htimes hreads
  generalize trace prime (PinOutput.calls pops) = t at *
  obtain ⟨h3', h3''⟩ := List.getElem?_eq_some_iff.1 h3
  have hsh := shows_of (W := prime ++ written (loop₀ b) fops) (pins := s.out.pins) (by omega)
    (fun k h h' => by have := hsg k h (by rw [hw]; exact h'); rw [this]; simp only [hw])
    (fun k h h' => by have := hgp k h (by rw [hw]; exact h'); rw [this]; simp only [hw])
    (fun e he => (htimes e he).1) (s.out.pins.length - 4) 2 h3' (by omega)
  rw [h3''] at hsh
  have e4 : (prime ++ written (loop₀ b) fops).drop 4 = written (loop₀ b) fops := by
    rw [List.drop_left' (by simp)]
  have more : ∀ (pins : List (Nat × BitVec 32)) (t₀ : Nat) (es l : List Step), Shows t₀ pins es → Shows t₀ pins (es ++ l) := by
    intro pins
    induction pins with
    | nil => intros; trivial
    | cons p pins ih =>
      intro t₀ es l h
      cases es with
      | nil => exact h.elim
      | cons e es => exact ⟨h.1, h.2.1, h.2.2.1, ih _ _ _ h.2.2.2⟩
  refine ⟨?_, ?_⟩
  · rw [← hsim.entries]
    refine more _ _ _ _ ?_
    rw [← e4]; exact hsh
  · intro p hp
    obtain ⟨k, hk, rfl⟩ := List.getElem_of_mem hp
    rw [List.length_take] at hk
    have hwl : t.written.length = (prime ++ written (loop₀ b) fops).length := congrArg List.length hw
    rw [List.getElem_take, hsg k (by omega) (by omega)]
    have : t.written[k]'(by omega) = (prime ++ written (loop₀ b) fops)[k]'(by simp; omega) := by simp only [hw]
    rw [this, List.getElem_append_left (by simp; omega)]
    simp

end Moovr.Drive

namespace Moovr.PinSpec
open MotionSpec PulseSpec StepQueueSpec StepBuffer

theorem level_zero {pins : List (Nat × BitVec 32)} (h : ∀ p ∈ pins, p.2 = 0) (t : Nat) : level 0 pins t = 0 := by
  induction pins with
  | nil => rfl
  | cons p pins ih =>
    show level (if p.1 ≤ t then p.2 else 0) pins t = 0
    rw [h p (by simp), ite_self]
    exact ih fun q hq => h q (List.mem_cons_of_mem _ hq)

theorem levelAt_drop {pins : List (Nat × BitVec 32)} (h : ∀ p ∈ pins.take 4, p.2 = 0) (t : Nat) :
    levelAt pins t = level 0 (pins.drop 4) t := by
  have e : levelAt pins t = level 0 (pins.take 4 ++ pins.drop 4) t := by rw [List.take_append_drop]; rfl
  rw [e, level, List.foldl_append]
  congr 1
  exact level_zero h t

theorem ordered_run (b : StepBuffer) (pops : List PinOutput.Op) :
    ((PinOutput.start b).run pops).pins.Pairwise (fun p q => p.1 < q.1) ∧
      ∀ p ∈ ((PinOutput.start b).run pops).pins, p.1 < ((PinOutput.start b).run pops).nextExpiry := by
  induction pops using List.reverseRecOn' with
  | nil => exact ⟨List.Pairwise.nil, by simp [PinOutput.run, PinOutput.start]⟩
  | snoc ops x ih =>
    rw [PinOutput.run_snoc]
    cases x with
    | write e => exact ih
    | expire =>
      obtain ⟨i1, i2⟩ := ih
      refine ⟨List.pairwise_append.2 ⟨i1, List.pairwise_singleton _ _, fun p hp q hq => ?_⟩, fun p hp => ?_⟩
      · rw [List.mem_singleton.1 hq]; exact i2 p hp
      · show p.1 < _ + (_ + 1)
        rcases List.mem_append.1 hp with hp | hp
        · have := i2 p hp; omega
        · rw [List.mem_singleton.1 hp]; simp only; omega

theorem first_updates {pins : List (Nat × BitVec 32)} {t₀ : Nat} {x : BitVec 32} (ho : pins.Pairwise fun p q => p.1 < q.1)
    (h3 : pins[3]? = some (t₀, x)) : ∀ p ∈ pins.take 4, p.1 ≤ t₀ := by
  obtain ⟨h3', h3''⟩ := List.getElem?_eq_some_iff.1 h3
  intro p hp
  obtain ⟨k, hk, rfl⟩ := List.getElem_of_mem hp
  rw [List.length_take] at hk
  rw [List.getElem_take]
  rcases Nat.lt_or_ge k 3 with c | c
  · have := List.pairwise_iff_getElem.1 ho k 3 (by omega) h3' c
    rw [h3''] at this; exact this.le
  · have : k = 3 := by omega
    subst this
    rw [h3'']

end Moovr.PinSpec
