import Verif.Spec.StepDensity
import Verif.Props.StepTiming
import Verif.Props.StepBuffer
import Verif.Lemmas.PinOutput
/-!
# How many entries of the step buffer the steps of a program need

Counting the ticks on which some line changes.
-/
namespace Moovr
open PulseSpec

/-- Number of elements that differ from their predecessor; `last` precedes the first one. -/
def changes {α : Type _} [DecidableEq α] (last : α) : List α → Nat
  | [] => 0
  | x :: xs => (if x = last then 0 else 1) + changes x xs

section
variable {α : Type _} [DecidableEq α]

/-- The last element. -/
def lastOr (last : α) : List α → α
  | [] => last
  | x :: xs => lastOr x xs

theorem lastOr_append (last : α) (xs ys : List α) : lastOr last (xs ++ ys) = lastOr (lastOr last xs) ys := by
  induction xs generalizing last with
  | nil => rfl
  | cons x xs ih => exact ih x

theorem changes_append (last : α) (xs ys : List α) :
    changes last (xs ++ ys) = changes last xs + changes (lastOr last xs) ys := by
  induction xs generalizing last with
  | nil => simp [changes, lastOr]
  | cons x xs ih => simp only [List.cons_append, changes, ih, lastOr]; omega

theorem changes_replicate (last : α) (n : Nat) : changes last (List.replicate n last) = 0 ∧
    lastOr last (List.replicate n last) = last := by
  induction n with
  | zero => exact ⟨rfl, rfl⟩
  | succ n ih => simp [List.replicate_succ, changes, lastOr, ih]

/-- The entries of a list that last `limit` ticks or more cannot be more than fit the total time. -/
theorem justified_changes {limit : Nat} {last : α} {es : List (Nat × α)} (h : Justified limit last es) :
    limit * es.length ≤ limit * changes last (expand last es) + (es.map Prod.fst).sum ∧
    (expand last es).length = (es.map Prod.fst).sum := by
  induction es generalizing last with
  | nil => simp [expand]
  | cons e es ih =>
    obtain ⟨t, x⟩ := e
    obtain ⟨h1, -, h3, h4⟩ := h
    obtain ⟨i1, i2⟩ := ih h4
    simp only [expand, List.append_assoc, List.map_cons, List.sum_cons, List.length_cons, List.length_append, List.length_replicate,
      List.length_singleton, List.length_nil]
    refine ⟨?_, by omega⟩
    rw [changes_append, (changes_replicate last _).1, (changes_replicate last _).2]
    simp only [List.singleton_append, changes]
    by_cases hx : x = last
    · have := h3.resolve_left (fun h => h hx)
      rw [if_pos hx, Nat.mul_add]
      simp only [Nat.zero_add, Nat.mul_one]
      omega
    · rw [if_neg hx]
      simp only [Nat.mul_add, Nat.mul_one, Nat.zero_add]
      omega

theorem expand_split (last : α) (xs ys : List (Nat × α)) :
    expand last (xs ++ ys) = expand last xs ++ expand (lastOr last (xs.map Prod.snd)) ys := by
  induction xs generalizing last with
  | nil => rfl
  | cons e xs ih =>
    obtain ⟨t, x⟩ := e
    simp only [List.cons_append, expand, ih, List.append_assoc, List.map_cons, lastOr]

theorem lastOr_expand (last : α) (xs : List (Nat × α)) : lastOr last (expand last xs) = lastOr last (xs.map Prod.snd) := by
  induction xs generalizing last with
  | nil => rfl
  | cons e xs ih =>
    obtain ⟨t, x⟩ := e
    simp only [expand, lastOr_append, (changes_replicate last _).2, List.map_cons, lastOr]
    exact ih x

theorem justified_append {limit : Nat} {last : α} {xs ys : List (Nat × α)} :
    Justified limit last (xs ++ ys) ↔ Justified limit last xs ∧ Justified limit (lastOr last (xs.map Prod.snd)) ys := by
  induction xs generalizing last with
  | nil => simp [Justified, lastOr]
  | cons e xs ih =>
    obtain ⟨t, x⟩ := e
    simp only [List.cons_append, Justified, ih, List.map_cons, lastOr]
    tauto

/-- Changes of a list are changes of one of its images. -/
theorem changes_le_sum {β : Type _} [DecidableEq β] (f : Nat → α → β) (n : Nat)
    (xs : List α) : ∀ last : α, (∀ x ∈ last :: xs, ∀ y ∈ last :: xs, (∀ i, i < n → f i x = f i y) → x = y) →
      changes last xs ≤ ((List.range n).map fun i => changes (f i last) (xs.map (f i))).sum := by
  induction xs with
  | nil => intro last _; simp [changes]
  | cons x xs ih =>
    intro last hf
    have h1 := ih x fun a ha b hb => hf a (List.mem_cons_of_mem _ ha) b (List.mem_cons_of_mem _ hb)
    simp only [changes, List.map_cons]
    have h2 : ((List.range n).map fun i => (if f i x = f i last then 0 else 1) + changes (f i x) (xs.map (f i))).sum =
        ((List.range n).map fun i => if f i x = f i last then 0 else 1).sum +
        ((List.range n).map fun i => changes (f i x) (xs.map (f i))).sum := by
      induction (List.range n) with
      | nil => rfl
      | cons a l ihl => simp only [List.map_cons, List.sum_cons, ihl]; omega
    rw [h2]
    have h3 : (if x = last then 0 else 1) ≤ ((List.range n).map fun i => if f i x = f i last then 0 else 1).sum := by
      by_cases e : x = last
      · simp [e]
      · rw [if_neg e]
        by_contra hlt
        apply e
        apply hf x (by simp) last (by simp)
        intro i hi
        have hz : ((List.range n).map fun i => if f i x = f i last then 0 else 1).sum = 0 := by omega
        have := List.sum_eq_zero_iff.1 hz _ (List.mem_map.2 ⟨i, List.mem_range.2 hi, rfl⟩)
        by_contra hne
        rw [if_neg hne] at this
        omega
    omega
end

/-! ## One axis -/

theorem changes_lines (cs : List Cmd) : ∀ p x D : Bool,
    changes (x, D) ((stepLine p cs).zip (dirLine D cs)) ≤ load D cs + (if p then 2 else if x then 1 else 0) := by
  induction cs with
  | nil => intro p x D; simp [stepLine, dirLine, changes]
  | cons c cs ih =>
    intro p x D
    cases c with
    | none =>
      have := ih false p D
      simp only [stepLine, dirLine, Option.isNone_none, Bool.and_true, Option.isSome_none, Option.map_none, Option.getD_none,
        List.zip_cons_cons, changes, load]
      cases p <;> cases x <;> simp at this ⊢ <;> omega
    | some d =>
      have := ih true false d.line
      simp only [stepLine, dirLine, Option.isNone_some, Bool.and_false, Option.isSome_some, Option.map_some, Option.getD_some,
        List.zip_cons_cons, changes, load]
      simp only [if_true] at this
      by_cases e : d.line = D
      · subst e
        cases p <;> cases x <;> simp at this ⊢ <;> omega
      · rw [if_neg e]
        split <;> split <;> omega

open Props (Successive)

/-- The steps of an axis are at least `g` ticks apart, half as much more when it turns round. -/
def Apart (g : Nat) (cs : List Cmd) : Prop :=
  ∀ i j d₁ d₂, Successive cs i j d₁ d₂ → i + g ≤ j ∧ (d₁ ≠ d₂ → 2 * i + 3 * g ≤ 2 * j)

theorem load_replicate (D : Bool) (m : Nat) (cs : List Cmd) : load D (List.replicate m none ++ cs) = load D cs := by
  induction m with
  | zero => rfl
  | succ m ih => rw [List.replicate_succ, List.cons_append]; exact ih

/-- A list of commands: quiet, or quiet until its first command. -/
theorem quiet_or (cs : List Cmd) : cs = List.replicate cs.length none ∨
    ∃ m d rest, cs = List.replicate m none ++ some d :: rest := by
  induction cs with
  | nil => left; rfl
  | cons c cs ih =>
    cases c with
    | some d => right; exact ⟨0, d, cs, rfl⟩
    | none =>
      rcases ih with h | ⟨m, d, rest, h⟩
      · left; rw [List.length_cons, List.replicate_succ, ← h]
      · right; exact ⟨m + 1, d, rest, by rw [h, List.replicate_succ, List.cons_append]⟩

theorem Apart.suffix {g : Nat} {xs ys : List Cmd} (h : Apart g (xs ++ ys)) : Apart g ys := by
  intro i j d₁ d₂ hs
  have := h (xs.length + i) (xs.length + j) d₁ d₂ ⟨by have := hs.lt; omega, by
    rw [List.getElem?_append_right (by omega)]; simpa using hs.first, by
    rw [List.getElem?_append_right (by omega)]; simpa using hs.second, fun k h1 h2 => by
    rw [List.getElem?_append_right (by omega)]; exact hs.quiet _ (by omega) (by omega)⟩
  constructor
  · omega
  · intro hd; have := this.2 hd; omega

theorem Apart.prefix {g : Nat} {xs ys : List Cmd} (h : Apart g (xs ++ ys)) : Apart g xs := by
  intro i j d₁ d₂ hs
  have hj : j < xs.length := by
    by_contra hj
    have := hs.second
    rw [List.getElem?_eq_none (by omega)] at this
    simp at this
  have hlt := hs.lt
  exact h i j d₁ d₂ ⟨hs.lt, by rw [List.getElem?_append_left (by omega)]; exact hs.first, by
    rw [List.getElem?_append_left (by omega)]; exact hs.second, fun k h1 h2 => by
    rw [List.getElem?_append_left (by omega)]; exact hs.quiet _ h1 h2⟩

theorem Apart.tail {g : Nat} (k : Nat) : ∀ {d : Dir} {cs : List Cmd}, cs.length ≤ k → Apart g (some d :: cs) →
    g * load d.line cs ≤ 2 * cs.length := by
  induction k with
  | zero =>
    intro d cs hk _
    have : cs = [] := List.length_eq_zero_iff.1 (by omega)
    subst this; simp [load]
  | succ k ih =>
    intro d cs hk h
    rcases quiet_or cs with e | ⟨m, d', rest, e⟩
    · have : load d.line cs = 0 := by
        rw [e]; have := load_replicate d.line cs.length []; rw [List.append_nil] at this; rw [this]; rfl
      rw [this]; omega
    · subst e
      rw [load_replicate]
      have hs := h 0 (m + 1) d d' ⟨by omega, rfl, by simp, fun k h1 h2 => by
        obtain ⟨k, rfl⟩ := Nat.exists_eq_succ_of_ne_zero (by omega : k ≠ 0)
        rw [Nat.succ_eq_add_one, List.getElem?_cons_succ, List.getElem?_append_left (by simp; omega)]
        rw [List.getElem?_replicate, if_pos (by omega)]⟩
      have h2 : Apart g (some d' :: rest) := by
        have := Apart.suffix (xs := some d :: List.replicate m none) (ys := some d' :: rest) (by simpa using h)
        exact this
      have h3 := ih (by simp at hk; omega) h2
      simp only [load, List.length_append, List.length_replicate, List.length_cons]
      rw [Nat.mul_add, Nat.mul_add]
      by_cases e : d'.line = d.line
      · rw [if_pos e]; omega
      · rw [if_neg e]
        have := hs.2 (fun h => e (by rw [h]))
        omega

theorem Apart.load_le {g : Nat} {cs : List Cmd} (h : Apart g cs) (D : Bool) : g * load D cs ≤ 2 * cs.length + 3 * g := by
  rcases quiet_or cs with e | ⟨m, d, rest, e⟩
  · have : load D cs = 0 := by
      rw [e]; have := load_replicate D cs.length []; rw [List.append_nil] at this; rw [this]; rfl
    rw [this]; omega
  · subst e
    rw [load_replicate]
    have h3 := Apart.tail _ le_rfl h.suffix
    simp only [load, List.length_append, List.length_replicate, List.length_cons]
    rw [Nat.mul_add, Nat.mul_add]
    split <;> omega

/-! ## All axes -/

/-- The two lines of an axis, tick by tick. -/
def pairs (p D : Bool) (cs : List Cmd) : List (Bool × Bool) := (stepLine p cs).zip (dirLine D cs)

theorem pairs_append (A : List Cmd) : ∀ p x D : Bool, ∃ p' x' D', (∀ B, pairs p D (A ++ B) = pairs p D A ++ pairs p' D' B) ∧
    lastOr (x, D) (pairs p D A) = (x', D') := by
  induction A with
  | nil => intro p x D; exact ⟨p, x, D, fun _ => rfl, rfl⟩
  | cons c cs ih =>
    intro p x D
    obtain ⟨p', x', D', h1, h2⟩ := ih c.isSome (p && c.isNone) ((c.map Dir.line).getD D)
    refine ⟨p', x', D', fun B => ?_, ?_⟩
    · have := h1 B
      unfold pairs at this ⊢
      simp only [List.cons_append, stepLine, dirLine, List.zip_cons_cons, this]
    · unfold pairs at h2 ⊢
      simp only [stepLine, dirLine, List.zip_cons_cons, lastOr]
      exact h2

theorem pairs_length (p D : Bool) (cs : List Cmd) : (pairs p D cs).length = cs.length := by
  induction cs generalizing p D with
  | nil => rfl
  | cons c cs ih =>
    have := ih c.isSome ((c.map Dir.line).getD D)
    unfold pairs at this ⊢
    simp only [stepLine, dirLine, List.zip_cons_cons, List.length_cons, this]

/-- The lines of an axis in a signal pattern. -/
def linesOf (a : Nat) (v : BitVec 32) : Bool × Bool := (v.getLsbD (2 * a), v.getLsbD (2 * a + 1))

namespace StepSignals

theorem waveform_pairs (n : Nat) (hn : n ≤ 15) {a : Nat} (ha : a < n) (cmds : List (Nat → Cmd)) :
    (waveform n init cmds).map (linesOf a) = pairs false false (cmds.map (· a)) := by
  obtain ⟨h1, h2⟩ := Props.step_signals_exact n hn a ha cmds
  unfold pairs
  rw [← h1, ← h2, List.zip_map']
  rfl

/-- All bits from `2 n` on are zero. -/
structure High (n : Nat) (s : StepSignals) : Prop where
  dir : ∀ i, 2 * n ≤ i → s.dirSetup.getLsbD i = false
  rise : ∀ i, 2 * n ≤ i → s.stepRise.getLsbD i = false
  fall : ∀ i, 2 * n ≤ i → s.stepFall.getLsbD i = false

theorem High.next {n : Nat} {s : StepSignals} (h : High n s) : High n s.next := ⟨h.rise, h.fall, h.fall⟩

theorem High.command {n : Nat} (hn : n ≤ 15) {s : StepSignals} (h : High n s) {a : Nat} (ha : a < n) (c : Cmd) :
    High n (s.command n a c) := by
  have big : ∀ v : BitVec 32, ∀ i, ¬ i < 32 → v.getLsbD i = false := fun v i hi => BitVec.getLsbD_of_ge v i (by omega)
  cases c with
  | none => exact h
  | some d =>
    cases d with
    | forward =>
      refine ⟨fun i hi => ?_, fun i hi => ?_, fun i hi => ?_⟩ <;> by_cases h32 : i < 32
      · rw [show s.command n a (some .forward) = s.stepForward n a from rfl, (forward_bits n s a i (by omega) (by omega) h32).1,
          if_neg (by omega), if_neg (by omega)]; exact h.dir i hi
      · exact big _ _ h32
      · rw [show s.command n a (some .forward) = s.stepForward n a from rfl, (forward_bits n s a i (by omega) (by omega) h32).2.1,
          if_neg (by omega), if_neg (by omega)]; exact h.rise i hi
      · exact big _ _ h32
      · rw [show s.command n a (some .forward) = s.stepForward n a from rfl, (forward_bits n s a i (by omega) (by omega) h32).2.2,
          if_neg (by omega), if_neg (by omega)]; exact h.fall i hi
      · exact big _ _ h32
    | backward =>
      refine ⟨fun i hi => ?_, fun i hi => ?_, fun i hi => ?_⟩ <;> by_cases h32 : i < 32
      · rw [show s.command n a (some .backward) = s.stepBackward n a from rfl, (backward_bits n s a i (by omega) (by omega) h32).1,
          if_neg (by omega), if_neg (by omega)]; exact h.dir i hi
      · exact big _ _ h32
      · rw [show s.command n a (some .backward) = s.stepBackward n a from rfl, (backward_bits n s a i (by omega) (by omega) h32).2.1,
          if_neg (by omega), if_neg (by omega)]; exact h.rise i hi
      · exact big _ _ h32
      · rw [show s.command n a (some .backward) = s.stepBackward n a from rfl, (backward_bits n s a i (by omega) (by omega) h32).2.2,
          if_neg (by omega), if_neg (by omega)]; exact h.fall i hi
      · exact big _ _ h32

theorem High.tick {n : Nat} (hn : n ≤ 15) {s : StepSignals} (h : High n s) (cmd : Nat → Cmd) : High n (s.tick n cmd) := by
  have key : ∀ (l : List Nat) (s : StepSignals), (∀ x ∈ l, x < n) → High n s →
      High n (l.foldl (fun s axis => s.command n axis (cmd axis)) s) := by
    intro l
    induction l with
    | nil => intro s _ h; exact h
    | cons x l ih => intro s hl h; exact ih _ (fun y hy => hl y (List.mem_cons_of_mem _ hy)) (h.command hn (hl x (by simp)) _)
  exact key _ _ (fun x hx => List.mem_range.1 hx) h.next

theorem High.waveform {n : Nat} (hn : n ≤ 15) (cmds : List (Nat → Cmd)) : ∀ {s : StepSignals}, High n s →
    ∀ v ∈ waveform n s cmds, ∀ i, 2 * n ≤ i → v.getLsbD i = false := by
  induction cmds with
  | nil => intro s _ v hv; simp [StepSignals.waveform] at hv
  | cons c cs ih =>
    intro s h v hv
    simp only [StepSignals.waveform, List.mem_cons] at hv
    rcases hv with rfl | hv
    · exact (h.tick hn c).dir
    · exact ih (h.tick hn c) v hv

theorem lines_inj {n : Nat} {v w : BitVec 32} (hv : ∀ i, 2 * n ≤ i → v.getLsbD i = false)
    (hw : ∀ i, 2 * n ≤ i → w.getLsbD i = false) (h : ∀ a, a < n → linesOf a v = linesOf a w) : v = w := by
  apply BitVec.eq_of_getLsbD_eq
  intro i _
  by_cases hi : 2 * n ≤ i
  · rw [hv i hi, hw i hi]
  · have := h (i / 2) (by omega)
    unfold linesOf at this
    simp only [Prod.mk.injEq] at this
    rcases Nat.mod_two_eq_zero_or_one i with e | e
    · rw [show i = 2 * (i / 2) by omega]; exact this.1
    · rw [show i = 2 * (i / 2) + 1 by omega]; exact this.2

/-- The changes of the signals during some ticks are at most those needed for the commands of the axes, and two for each axis. -/
theorem waveform_changes (n : Nat) (hn : n ≤ 15) {cmds : List (Nat → Cmd)} {W₁ W₂ W₃ : List (BitVec 32)}
    (hW : waveform n init cmds = W₁ ++ W₂ ++ W₃) :
    ∃ D : Nat → Bool, changes (lastOr 0 W₁) W₂ ≤
      ((List.range n).map fun a => load (D a) (((cmds.map (· a)).drop W₁.length).take W₂.length) + 2).sum := by
  have hlen : cmds.length = W₁.length + W₂.length + W₃.length := by
    rw [← Props.waveform_length n init cmds, hW]; simp; omega
  have hbit : ∀ v ∈ (0 : BitVec 32) :: (W₁ ++ W₂ ++ W₃), ∀ i, 2 * n ≤ i → v.getLsbD i = false := by
    intro v hv
    rcases List.mem_cons.1 hv with rfl | hv
    · intro i _; simp
    · exact High.waveform hn cmds ⟨fun i _ => by simp [init], fun i _ => by simp [init], fun i _ => by simp [init]⟩ v (hW ▸ hv)
  have hlast : lastOr 0 W₁ ∈ (0 : BitVec 32) :: (W₁ ++ W₂ ++ W₃) := by
    have key : ∀ (l : List (BitVec 32)) (x : BitVec 32), lastOr x l ∈ x :: l := by
      intro l
      induction l with
      | nil => intro x; simp [lastOr]
      | cons y l ih => intro x; exact List.mem_cons_of_mem _ (ih y)
    rcases List.mem_cons.1 (key W₁ 0) with h | h
    · rw [h]; simp
    · exact List.mem_cons_of_mem _ (List.mem_append_left _ (List.mem_append_left _ h))
  have hmem : ∀ x ∈ lastOr 0 W₁ :: W₂, x ∈ (0 : BitVec 32) :: (W₁ ++ W₂ ++ W₃) := by
    intro x hx
    rcases List.mem_cons.1 hx with rfl | hx
    · exact hlast
    · exact List.mem_cons_of_mem _ (by simp [hx])
  have h1 := changes_le_sum (fun a v => linesOf a v) n W₂ (lastOr 0 W₁) fun x hx y hy h =>
    lines_inj (hbit x (hmem x hx)) (hbit y (hmem y hy)) h
  -- the axes one by one
  have h2 : ∀ a, a < n → ∃ D, changes (linesOf a (lastOr 0 W₁)) (W₂.map (linesOf a)) ≤
      load D (((cmds.map (· a)).drop W₁.length).take W₂.length) + 2 := by
    intro a ha
    have hp := waveform_pairs n hn ha cmds
    rw [hW] at hp
    set cs := cmds.map (· a) with hcs
    have hcl : cs.length = W₁.length + W₂.length + W₃.length := by rw [hcs, List.length_map, hlen]
    obtain ⟨p, x, D, e1, e2⟩ := pairs_append (cs.take W₁.length) false false false
    have e3 := e1 (cs.drop W₁.length)
    rw [List.take_append_drop] at e3
    obtain ⟨p', x', D', e4, -⟩ := pairs_append ((cs.drop W₁.length).take W₂.length) p x D
    have e5 := e4 ((cs.drop W₁.length).drop W₂.length)
    rw [List.take_append_drop] at e5
    rw [e3, e5] at hp
    simp only [List.map_append, ← List.append_assoc] at hp
    have l1 : (W₁.map (linesOf a)).length = (pairs false false (cs.take W₁.length)).length := by
      rw [List.length_map, pairs_length, List.length_take]; omega
    have l2 : (W₂.map (linesOf a)).length = (pairs p D ((cs.drop W₁.length).take W₂.length)).length := by
      rw [List.length_map, pairs_length, List.length_take, List.length_drop]; omega
    rw [List.append_assoc, List.append_assoc] at hp
    obtain ⟨q1, hp⟩ := List.append_inj hp l1
    obtain ⟨q2, -⟩ := List.append_inj hp l2
    refine ⟨D, ?_⟩
    rw [q2]
    have hl : linesOf a (lastOr 0 W₁) = (x, D) := by
      rw [← e2, ← q1]
      have key : ∀ (l : List (BitVec 32)) (v : BitVec 32), linesOf a (lastOr v l) = lastOr (linesOf a v) (l.map (linesOf a)) := by
        intro l
        induction l with
        | nil => intro v; rfl
        | cons y l ih => intro v; exact ih y
      rw [key]
      congr 1
      simp [linesOf]
    rw [hl]
    have := changes_lines ((cs.drop W₁.length).take W₂.length) p x D
    refine this.trans (Nat.add_le_add_left ?_ _)
    split
    · exact le_rfl
    · split <;> omega
  choose! D hD using h2
  refine ⟨D, h1.trans ?_⟩
  refine List.sum_le_sum ?_
  intro a ha
  exact hD a (List.mem_range.1 ha)

end StepSignals

/-! ## Entries -/

theorem Apart.atMost {g : Nat} (hg : 0 < g) {cs : List Cmd} (h : Apart g cs) : AtMost (1498 / g + 3) cs := by
  intro D i T hT
  have h1 : Apart g ((cs.drop i).take T) := by
    have h2 : Apart g (cs.drop i) := Apart.suffix (xs := cs.take i) (by rw [List.take_append_drop]; exact h)
    exact Apart.prefix (ys := (cs.drop i).drop T) (by rw [List.take_append_drop]; exact h2)
  have h2 := h1.load_le D
  have h3 : ((cs.drop i).take T).length ≤ 749 := by rw [List.length_take]; omega
  have h4 : g * load D ((cs.drop i).take T) ≤ 1498 + g * 3 := by omega
  have h5 : load D ((cs.drop i).take T) ≤ (1498 + g * 3) / g := (Nat.le_div_iff_mul_le hg).2 (by rw [Nat.mul_comm]; exact h4)
  rw [Nat.add_mul_div_left _ _ hg] at h5
  exact h5

theorem load_none (D : Bool) (cs : List Cmd) (h : ∀ c ∈ cs, c = none) : load D cs = 0 := by
  induction cs with
  | nil => rfl
  | cons c cs ih =>
    rw [h c (by simp)]
    exact ih fun x hx => h x (List.mem_cons_of_mem _ hx)

theorem atMost_none {cs : List Cmd} (h : ∀ c ∈ cs, c = none) : AtMost 0 cs := by
  intro D i T _
  rw [load_none]
  intro c hc
  exact h c (List.mem_of_mem_drop (List.mem_of_mem_take hc))

theorem AtMost.quiet {m : Nat} {cs : List Cmd} (h : AtMost m cs) (k : Nat) : AtMost m (List.replicate k none ++ cs) := by
  intro D i T hT
  rw [List.drop_append, List.take_append]
  have h1 : ∀ (n : Nat) (x : List Cmd), load D ((List.replicate n none).take T ++ x) = load D x := by
    intro n x
    rw [List.take_replicate, load_replicate]
  rw [List.drop_replicate, h1]
  exact h D _ _ (by omega)

open StepQueueSpec StepSignals

/-- If the lines of the axes change seldom enough, any 254 entries last 750 ticks. -/
theorem entries_last {n : Nat} (hn : n ≤ 15) {es : List Step} {cmds : List (Nat → Cmd)} {m : Nat → Nat}
    (hj : Justified 375 0 (es.map fun e => (e.timeBefore, e.signals)))
    (hw : waveform n init cmds = expand 0 (es.map fun e => (e.timeBefore, e.signals)))
    (hm : ∀ a, a < n → AtMost (m a) (cmds.map (· a))) (hsum : ((List.range n).map fun a => m a + 2).sum < 253) (i : Nat)
    (hi : i + 254 ≤ es.length) : 750 ≤ sumTime ((es.drop i).take 254) := by
  by_contra hlt
  rw [Nat.not_le] at hlt
  set pr : Step → Nat × BitVec 32 := fun e => (e.timeBefore, e.signals) with hpr
  have hsplit : es.map pr = (es.take i).map pr ++ (((es.drop i).take 254).map pr ++ ((es.drop i).drop 254).map pr) := by
    rw [← List.map_append, ← List.map_append, List.take_append_drop, List.take_append_drop]
  rw [hsplit] at hj hw
  obtain ⟨-, hj2⟩ := justified_append.1 hj
  obtain ⟨hj2, -⟩ := justified_append.1 hj2
  rw [expand_split, expand_split] at hw
  rw [← lastOr_expand] at hw hj2
  obtain ⟨c1, c2⟩ := justified_changes hj2
  obtain ⟨D, hD⟩ := waveform_changes n hn (hw.trans (List.append_assoc _ _ _).symm)
  have hl : (((es.drop i).take 254).map pr).length = 254 := by simp; omega
  have ht : ((((es.drop i).take 254).map pr).map Prod.fst).sum = sumTime ((es.drop i).take 254) := by
    rw [List.map_map]; rfl
  rw [hl, ht] at c1
  rw [ht] at c2
  rw [c2] at hD
  have hle : ((List.range n).map fun a => load (D a) (((cmds.map (· a)).drop
      (expand 0 ((es.take i).map pr)).length).take (sumTime ((es.drop i).take 254))) + 2).sum ≤
      ((List.range n).map fun a => m a + 2).sum :=
    List.sum_le_sum fun a ha => Nat.add_le_add_right (hm a (List.mem_range.1 ha) _ _ _ hlt) 2
  omega

/-! ## Quiet ticks before -/

namespace StepSignals

/-- Nothing set, nothing pending. -/
structure Blank (s : StepSignals) : Prop where
  dir : s.dirSetup = 0
  rise : s.stepRise = 0
  fall : s.stepFall = 0

/-- The same registers. -/
structure Alike (s t : StepSignals) : Prop where
  dir : s.dirSetup = t.dirSetup
  rise : s.stepRise = t.stepRise
  fall : s.stepFall = t.stepFall

theorem Alike.command {s t : StepSignals} (h : Alike s t) (n a : Nat) (c : Cmd) : Alike (s.command n a c) (t.command n a c) := by
  cases c with
  | none => exact h
  | some d =>
    cases d <;> simp only [StepSignals.command, stepForward, stepBackward] <;> split <;>
      first
      | exact h
      | exact ⟨by simp only [h.dir], by simp only [h.rise], by simp only [h.fall]⟩

theorem Alike.tick {s t : StepSignals} (h : Alike s t) (n : Nat) (c : Nat → Cmd) : Alike (s.tick n c) (t.tick n c) := by
  have key : ∀ (l : List Nat) (s t : StepSignals), Alike s t →
      Alike (l.foldl (fun s axis => s.command n axis (c axis)) s) (l.foldl (fun s axis => s.command n axis (c axis)) t) := by
    intro l
    induction l with
    | nil => intro s t h; exact h
    | cons x l ih => intro s t h; exact ih _ _ (h.command n x _)
  exact key _ _ _ ⟨h.rise, h.fall, h.fall⟩

theorem Alike.waveform {n : Nat} (cmds : List (Nat → Cmd)) : ∀ {s t : StepSignals}, Alike s t →
    StepSignals.waveform n s cmds = StepSignals.waveform n t cmds := by
  induction cmds with
  | nil => intro s t _; rfl
  | cons c cs ih =>
    intro s t h
    simp only [StepSignals.waveform]
    rw [ih (h.tick n c), (h.tick n c).dir]

theorem waveform_quiet (n k : Nat) (cmds : List (Nat → Cmd)) :
    waveform n init (List.replicate k (fun _ => none) ++ cmds) = List.replicate k 0 ++ waveform n init cmds := by
  induction k with
  | zero => rfl
  | succ k ih =>
    rw [List.replicate_succ, List.cons_append, List.replicate_succ, List.cons_append]
    have hfold : ∀ (l : List Nat) (s : StepSignals),
        l.foldl (fun s axis => StepSignals.command n s axis ((fun _ => none : Nat → Cmd) axis)) s = s := by
      intro l
      induction l with
      | nil => intro s; rfl
      | cons x l ih => intro s; exact ih s
    have ht : init.tick n (fun _ => none) = init.next := hfold _ _
    simp only [waveform, ht]
    rw [Alike.waveform (s := init.next) (t := init) _ ⟨rfl, rfl, rfl⟩, ih]
    rfl

end StepSignals

open StepSignals in
/-- The priming entries of the shipped step buffer and the entries after them. -/
theorem primed_entries {es : List Step} {n : Nat} {cmds : List (Nat → Cmd)}
    (hj : Justified 375 0 (es.map fun e => (e.timeBefore, e.signals)))
    (hw : waveform n init cmds = expand 0 (es.map fun e => (e.timeBefore, e.signals))) :
    Justified 375 0 ((List.replicate 4 ⟨375, 0⟩ ++ es : List Step).map fun e => (e.timeBefore, e.signals)) ∧
    waveform n init (List.replicate 1500 (fun _ => none) ++ cmds) =
      expand 0 ((List.replicate 4 ⟨375, 0⟩ ++ es : List Step).map fun e => (e.timeBefore, e.signals)) := by
  constructor
  · rw [List.map_append, justified_append]
    refine ⟨by simp [List.replicate, Justified], ?_⟩
    exact hj
  · rw [StepSignals.waveform_quiet, List.map_append, expand_split, hw]
    have e : expand 0 ((List.replicate 4 ⟨375, 0⟩ : List Step).map fun e => (e.timeBefore, e.signals)) =
        List.replicate 1500 0 := by
      have e1 : ∀ (m k : Nat), expand 0 ((List.replicate k ⟨m + 1, 0⟩ : List Step).map fun e => (e.timeBefore, e.signals)) =
          List.replicate ((m + 1) * k) 0 := by
        intro m k
        induction k with
        | zero => rfl
        | succ k ih =>
          rw [List.replicate_succ, List.map_cons]
          simp only [expand, Nat.add_sub_cancel]
          rw [ih, List.append_assoc, List.singleton_append, ← List.replicate_succ, List.replicate_append_replicate]
          congr 1
          rw [Nat.mul_succ]
          omega
      exact e1 374 4
    rw [e]
    rfl

/-! ## The loop that fills the step buffer -/

/-- The outputs that the loop writes. -/
def written (f : FillLoop) (ops : List FillLoop.Op) : List Step :=
  (f.calls ops).filterMap fun c => match c with | .write s => some s | _ => none

namespace FillLoop
open StepQueueSpec StepBuffer

theorem written_snoc (f : FillLoop) (ops : List Op) (x : Op) :
    written f (ops ++ [x]) = written f ops ++ written (f.run ops) [x] := by
  unfold written
  rw [calls_snoc, List.filterMap_append]

/-- If the outputs that are to be written are sparse enough, none is lost. -/
theorem none_lost {b₀ b : StepBuffer} (h : StepBuffer.InitReturns b₀ b) (h1 : b₀.minimumTotalTime = 1500)
    (h2 : b₀.minimumLevel = 4) {W : List Step} (hW : Good (List.replicate 4 ⟨375, 0⟩ ++ W)) (ops : List Op) :
    let f : FillLoop := ⟨b, false, []⟩
    FedRev (List.replicate 4 ⟨375, 0⟩) (f.calls ops).reverse → written f ops <+: W →
    (f.run ops).lost = [] ∧
      (trace (List.replicate 4 ⟨375, 0⟩) (f.calls ops)).written = List.replicate 4 ⟨375, 0⟩ ++ written f ops := by
  intro f
  have hpre : ∀ {V : List Step}, V <+: W → Good (List.replicate 4 ⟨375, 0⟩ ++ V) := by
    rintro V ⟨U, rfl⟩
    refine ⟨fun s hs => hW.short s ?_, fun i hi => ?_⟩
    · rw [← List.append_assoc]; exact List.mem_append_left _ hs
    · have := hW.dense i (by simp only [List.length_append] at hi ⊢; omega)
      rw [← List.append_assoc] at this
      rwa [List.drop_append_of_le_length (by omega), List.take_append_of_le_length (by rw [List.length_drop]; omega)] at this
  obtain ⟨s1, s2, s3, s4⟩ := shipped_priming h h1 h2
  have hrep : StepBuffer.Rep b ⟨List.replicate 4 ⟨375, 0⟩, 0⟩ := by rw [← s4]; exact StepBuffer.rep_priming h
  induction ops using List.reverseRecOn' with
  | nil => intro _ _; exact ⟨rfl, by simp [written, calls, trace]⟩
  | snoc ops x ih =>
    intro hfed hput
    rw [written_snoc] at hput
    have hput' : written f ops <+: W := (List.prefix_append _ _).trans hput
    rw [calls_snoc] at hfed
    have hfed' : FedRev (List.replicate 4 ⟨375, 0⟩) (f.calls ops).reverse := by
      cases x with
      | check => simpa [calls] using hfed
      | put s =>
        by_cases hc : (f.run ops).committed
        · simpa [calls, hc, FedRev] using hfed
        · simpa [calls, hc] using hfed
      | interrupt =>
        rw [List.reverse_append] at hfed
        exact hfed.2
    obtain ⟨i1, i2⟩ := ih hfed' hput'
    have hroom := (committed_room h h1 h2 ops hfed' (by rw [i2]; exact hpre hput')).1
    have htr := StepBuffer.rep_after hrep (f.calls ops)
    rw [← show (f.run ops).buffer = b.after (f.calls ops) from buffer_run f ops] at htr
    rw [run_snoc, written_snoc, calls_snoc]
    cases x with
    | check =>
      refine ⟨?_, by simpa [calls, written] using i2⟩
      simp only [step]; split <;> exact i1
    | interrupt =>
      refine ⟨by simpa [step] using i1, ?_⟩
      have e : (f.run ops).calls [.interrupt] = [.read] := rfl
      rw [e, trace_snoc]
      have e2 : written (f.run ops) [.interrupt] = [] := rfl
      rw [e2, List.append_nil, ← i2]
      simp only [StepQueueSpec.next]; split <;> rfl
    | put s =>
      by_cases hc : (f.run ops).committed = true
      · have hlt := hroom hc
        have e : (f.run ops).calls [.put s] = [.write s] := by simp [calls, hc]
        have e2 : written (f.run ops) [.put s] = [s] := by simp [written, e]
        constructor
        · simp only [step, hc, if_true]
          rw [if_pos (show (f.run ops).buffer.level < StepBuffer.length from hlt)]; exact i1
        · rw [e, e2, trace_snoc, ← List.append_assoc, ← i2]
          have := htr.level_eq
          have hlt' : (f.run ops).buffer.level < 256 := hlt
          simp only [StepQueueSpec.next]
          rw [if_pos (show (trace (List.replicate 4 ⟨375, 0⟩) (f.calls ops)).waiting < capacity by unfold capacity StepQueueSpec.Trace.waiting; omega)]
      · have e : (f.run ops).calls [.put s] = [] := by simp [calls, hc]
        have e2 : written (f.run ops) [.put s] = [] := by simp [written, e]
        rw [e, e2, List.append_nil, List.append_nil]
        exact ⟨by simp only [step, hc]; exact i1, i2⟩

end FillLoop

end Moovr
