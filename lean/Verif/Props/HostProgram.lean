import Verif.Props.GCodeText
import Verif.Props.HostInterface
/-!
# Property C126: a G-code program sent over the serial link is read as it was sent

The path of a line from the host to the interpreter: reception interrupts, `hasMessage()`, `getMessage()`, and `getBlockFromString()`
on the message.
-/
namespace Moovr.Props
open HostSpec HostInterface GCodeText

/-- Traffic on the link after the history `base`: all calls, the bytes that have arrived since, and the messages that were returned since.
The program asks `hasMessage()`
before each `getMessage()` and does not initialize again; in between it may send and transmit. With `flow`, the host sends a byte only
if fewer than 256 bytes have arrived that have not been returned. -/
inductive Traffic (flow : Bool) (base : List Call) : List Call → List Byte → List (List Byte) → Prop
  | start : Traffic flow base base [] []
  | recv {calls arrived ms} (b : Byte) : Traffic flow base calls arrived ms →
      (flow = true → arrived.length < ms.flatten.length + 256) → Traffic flow base (calls ++ [.recv b]) (arrived ++ [b]) ms
  | read {calls arrived ms m} : Traffic flow base calls arrived ms → ((after calls).call .hasMessage).2 = .bool true →
      ((after calls).call .getMessage).2 = .bytes m → Traffic flow base (calls ++ [.getMessage]) arrived (ms ++ [m])
  | ask {calls arrived ms} : Traffic flow base calls arrived ms → Traffic flow base (calls ++ [.hasMessage]) arrived ms
  | send {calls arrived ms} (msg : List Byte) : Traffic flow base calls arrived ms → Traffic flow base (calls ++ [.send msg]) arrived ms
  | txReady {calls arrived ms} : Traffic flow base calls arrived ms → Traffic flow base (calls ++ [.txReady]) arrived ms

/-- The bytes of some lines, each ended by a line feed. -/
def onWire (lines : List (List Byte)) : List Byte := lines.flatMap fun l => l ++ [newline]

/-- A message as the text given to `getBlockFromString()`. -/
def textOf (m : List Byte) : List Nat := m.map UInt8.toNat

namespace HostProgramProof

/-- A message that ends with its only line feed. -/
def IsLine (m : List Byte) : Prop := ∃ body, newline ∉ body ∧ m = body ++ [newline]

theorem traffic_inv {base calls : List Call} {a : List Byte} {ms : List (List Byte)} (hb : rxPending base = [])
    (h : Traffic true base calls a ms) :
    a = ms.flatten ++ rxPending calls ∧ ∀ m ∈ ms, IsLine m := by
  induction h with
  | start => exact ⟨by rw [hb]; rfl, by simp⟩
  | recv b _ hr ih =>
    refine ⟨?_, ih.2⟩
    have hl := congrArg List.length ih.1
    have hr := hr rfl
    rw [List.length_append] at hl
    rw [rxPending_snoc, rxNext, if_pos (by unfold capacity; omega), ← List.append_assoc, ← ih.1]
  | @read calls a ms m h hm hg ih =>
    have hin := (host_hasMessage_iff calls).1.1 hm
    obtain ⟨line, rest, hq, hn⟩ : ∃ line rest, rxPending calls = line ++ newline :: rest ∧ newline ∉ line := by
      exact List.eq_append_cons_of_mem hin
    obtain ⟨h1, h2⟩ := (host_hasMessage_iff calls).2 line rest hq hn
    rw [h1] at hg
    cases hg
    refine ⟨?_, ?_⟩
    · rw [h2, ih.1, hq]
      simp
    · intro m hm
      rcases List.mem_append.1 hm with hm | hm
      · exact ih.2 m hm
      · exact ⟨line, hn, by simpa using hm⟩
  | ask _ ih => rw [rxPending_snoc]; exact ih
  | send msg _ ih => rw [rxPending_snoc]; exact ih
  | txReady _ ih => rw [rxPending_snoc]; exact ih

/-- Two texts that begin with the same line. -/
theorem same_line {u v x y : List Byte} (hu : newline ∉ u) (hv : newline ∉ v) (h : u ++ newline :: x <+: v ++ newline :: y) :
    u = v ∧ x <+: y := by
  induction u generalizing v with
  | nil =>
    cases v with
    | nil => exact ⟨rfl, (List.cons_prefix_cons.1 h).2⟩
    | cons b v => exact absurd (List.cons_prefix_cons.1 h).1 fun e => hv (by simp [e])
  | cons a u ih =>
    cases v with
    | nil => exact absurd (List.cons_prefix_cons.1 h).1 fun e => hu (by simp [e])
    | cons b v =>
      obtain ⟨e, h⟩ := List.cons_prefix_cons.1 h
      obtain ⟨h1, h2⟩ := ih (fun h => hu (by simp [h])) (fun h => hv (by simp [h])) h
      exact ⟨by rw [e, h1], h2⟩

/-- There is only one way to split a text into lines. -/
theorem split_lines {ms lines : List (List Byte)} {q : List Byte} (hm : ∀ m ∈ ms, IsLine m) (hl : ∀ l ∈ lines, newline ∉ l)
    (h : ms.flatten ++ q <+: onWire lines) :
    ∃ k ≤ lines.length, ms = (lines.take k).map (· ++ [newline]) ∧ q <+: onWire (lines.drop k) := by
  induction ms generalizing lines with
  | nil => exact ⟨0, by simp, rfl, by simpa using h⟩
  | cons m ms ih =>
    obtain ⟨body, hb, rfl⟩ := hm m (by simp)
    cases lines with
    | nil => simp [onWire] at h
    | cons l lines =>
      have h' : body ++ newline :: (ms.flatten ++ q) <+: l ++ newline :: onWire lines := by simpa [onWire] using h
      obtain ⟨rfl, h3⟩ := same_line hb (hl l (by simp)) h'
      obtain ⟨k, hk, h1, h2⟩ := ih (fun m hm' => hm m (List.mem_cons_of_mem _ hm')) (fun l hl' => hl l (List.mem_cons_of_mem _ hl')) h3
      exact ⟨k + 1, by simpa using hk, by simp [h1], by simpa using h2⟩

theorem stripped_newline (t : List Nat) (c : Bool) : stripped c (t ++ ['\n'.toNat]) = stripped c t := by
  induction t generalizing c with
  | nil => rfl
  | cons a t ih =>
    rw [List.cons_append]
    unfold stripped
    simp only [ih]

theorem ofString_newline (t : List Nat) : Block.ofString (t ++ ['\n'.toNat]) = Block.ofString t := by
  rw [ofString_eq, ofString_eq, stripped_newline]

theorem textOf_line (l : List Byte) : textOf (l ++ [newline]) = textOf l ++ ['\n'.toNat] := by
  simp [textOf]; rfl

end HostProgramProof

open HostProgramProof

/-- **C126, partial (lines).** Beginning with nothing stored (as after `initialize()`), if the host does not overrun the link, then
whatever has arrived of the lines it sends: the messages returned
are the first of these lines, in order, and each is interpreted as the line that was sent. Missing: hosts that send more (there is
no flow control; `link_program_violated`). -/
theorem link_lines_partial {base calls : List Call} {arrived : List Byte} {ms : List (List Byte)} (hb : rxPending base = [])
    (h : Traffic true base calls arrived ms)
    (lines : List (List Byte)) (hl : ∀ l ∈ lines, newline ∉ l) (ha : arrived <+: onWire lines) :
    ∃ k ≤ lines.length, ms = (lines.take k).map (· ++ [newline]) ∧
      List.Forall₂ (fun l m => Block.ofString (textOf m) = Block.ofString (textOf l)) (lines.take k) ms := by
  obtain ⟨h1, h2⟩ := traffic_inv hb h
  rw [h1] at ha
  obtain ⟨k, hk, h3, -⟩ := split_lines h2 hl ha
  refine ⟨k, hk, h3, ?_⟩
  rw [h3, List.forall₂_map_right_iff]
  exact List.forall₂_same.2 fun l _ => by rw [textOf_line, ofString_newline]

/-- **C126 (all of it).** When the whole program has arrived and `hasMessage()` is false, every line has been returned. -/
theorem link_complete {base calls : List Call} {ms : List (List Byte)} (lines : List (List Byte)) (hb : rxPending base = [])
    (h : Traffic true base calls (onWire lines) ms)
    (hl : ∀ l ∈ lines, newline ∉ l) (hn : ((after calls).call .hasMessage).2 = .bool false) : ms = lines.map (· ++ [newline]) := by
  obtain ⟨h1, h2⟩ := traffic_inv hb h
  obtain ⟨k, hk, h3, h4⟩ := split_lines (q := rxPending calls) h2 hl (by rw [← h1])
  have hq : newline ∉ rxPending calls := fun hin => by
    have := (host_hasMessage_iff calls).1.2 hin
    rw [hn] at this
    simp at this
  have h5 : rxPending calls = onWire (lines.drop k) := by
    have e : onWire lines = ms.flatten ++ onWire (lines.drop k) := by
      rw [h3, ← List.flatMap_def]
      unfold onWire
      rw [← List.flatMap_append, List.take_append_drop]
    rw [e] at h1
    exact (List.append_cancel_left h1).symm
  have h6 : lines.drop k = [] := by
    cases hd : lines.drop k with
    | nil => rfl
    | cons l r => exact absurd (by rw [h5, hd]; simp [onWire]) hq
  have : lines.take k = lines := by
    have := List.take_append_drop k lines
    rwa [h6, List.append_nil] at this
  rw [h3, this]

/-- **C126 (no deadlock).** With lines of at most 255 bytes, there is always a message to read or room for the next byte. -/
theorem link_never_stuck {base calls : List Call} {arrived : List Byte} {ms : List (List Byte)} (hb : rxPending base = [])
    (h : Traffic true base calls arrived ms)
    (lines : List (List Byte)) (hl : ∀ l ∈ lines, newline ∉ l ∧ l.length ≤ 255) (ha : arrived <+: onWire lines) :
    ((after calls).call .hasMessage).2 = .bool true ∨ arrived.length < ms.flatten.length + 256 := by
  obtain ⟨h1, h2⟩ := traffic_inv hb h
  by_cases hin : newline ∈ rxPending calls
  · exact .inl ((host_hasMessage_iff calls).1.2 hin)
  right
  rw [h1] at ha ⊢
  obtain ⟨k, hk, -, h4⟩ := split_lines h2 (fun l h => (hl l h).1) ha
  rw [List.length_append]
  cases hd : lines.drop k with
  | nil =>
    rw [hd] at h4
    have := List.prefix_nil.1 h4
    rw [this]
    simp
  | cons l r =>
    rw [hd] at h4
    obtain ⟨hn, hlen⟩ := hl l (List.mem_of_mem_drop (by rw [hd]; simp))
    have h5 : rxPending calls <+: l ++ newline :: onWire r := by simpa [onWire] using h4
    by_contra hc
    have h6 : l ++ [newline] <+: rxPending calls := by
      refine List.prefix_of_prefix_length_le (l₃ := l ++ newline :: onWire r) ⟨onWire r, by simp⟩ h5 ?_
      simp
      omega
    exact hin (h6.subset (by simp))

/-- **C126 (recovery).** After any history whatever, bytes lost and lines cut included, if there is room for a line feed: when the host sends
one and the program reads until `hasMessage()` is false, nothing is stored any more, so that the theorems above apply to what follows. -/
theorem link_recovers (calls : List Call) (hr : (rxPending calls).length < 256) {flow : Bool} {calls' : List Call} {ms : List (List Byte)}
    (h : Traffic flow (calls ++ [.recv newline]) calls' [] ms) (hn : ((after calls').call .hasMessage).2 = .bool false) :
    rxPending calls' = [] := by
  have key : ∀ {c : List Call} {a : List Byte} {ms : List (List Byte)}, Traffic flow (calls ++ [.recv newline]) c a ms → a = [] →
      rxPending c = [] ∨ ∃ q, rxPending c = q ++ [newline] := by
    intro c a ms h
    induction h with
    | start => exact fun _ => .inr ⟨_, by rw [rxPending_snoc, rxNext, if_pos (by exact hr)]⟩
    | recv b _ _ _ => intro h; simp at h
    | @read c a ms m _ hm _ ih =>
      intro ha
      rcases ih ha with h | ⟨q, h⟩
      · have := (host_hasMessage_iff c).1.1 hm
        rw [h] at this
        simp at this
      · obtain ⟨u, v, e, hu⟩ := List.eq_append_cons_of_mem ((host_hasMessage_iff c).1.1 hm)
        rw [((host_hasMessage_iff c).2 u v e hu).2]
        rcases List.eq_nil_or_concat v with rfl | ⟨w, x, rfl⟩
        · exact .inl rfl
        · right
          rw [h, List.concat_eq_append, ← List.cons_append, ← List.append_assoc] at e
          obtain ⟨-, e⟩ := List.append_inj' e rfl
          exact ⟨w, by rw [List.concat_eq_append, e]⟩
    | ask _ ih => rw [rxPending_snoc]; exact ih
    | send msg _ ih => rw [rxPending_snoc]; exact ih
    | txReady _ ih => rw [rxPending_snoc]; exact ih
  rcases key h rfl with h | ⟨q, h⟩
  · exact h
  · have := (host_hasMessage_iff calls').1.2 (by rw [h]; simp)
    rw [hn] at this
    simp at this

/-- The bytes of a line with some words. -/
def asBytes (ws : List Written) : List Byte := (printed ws).map UInt8.ofNat

/-- A block that C44 is about, written with bytes. -/
structure Sendable (ws : List Written) : Prop where
  ok : ∀ w ∈ ws, w.Ok
  bytes : ∀ w ∈ ws, ∀ c ∈ w.text, c < 256
  words : ws.length ≤ 16
  length : (printed ws).length ≤ 255
  codes : ∀ w ∈ ws, w.letter = 'G'.toNat ∨ w.letter = 'M'.toNat → -1 < strtod w.text * 10 ∧ strtod w.text * 10 < 2 ^ 32

namespace HostProgramProof

theorem printed_char {ws : List Written} (h : Sendable ws) {c : Nat} (hc : c ∈ printed ws) : c < 256 ∧ c ≠ '\n'.toNat := by
  unfold printed at hc
  obtain ⟨w, hw, hc⟩ := List.mem_flatMap.1 hc
  obtain ⟨h1, h2, -, h3⟩ := h.ok w hw
  rcases List.mem_cons.1 hc with rfl | hc
  · simp only [Char.reduceToNat] at h1 h2 ⊢
    omega
  · exact ⟨h.bytes w hw c hc, (h3 c hc).2.1⟩

theorem textOf_asBytes {ws : List Written} (h : Sendable ws) : textOf (asBytes ws) = printed ws := by
  unfold textOf asBytes
  rw [List.map_map]
  conv_rhs => rw [← List.map_id (printed ws)]
  refine List.map_congr_left fun c hc => ?_
  have := (printed_char h hc).1
  simp only [Function.comp, id]
  exact UInt8.toNat_ofNat_of_lt' this

theorem newline_asBytes {ws : List Written} (h : Sendable ws) : newline ∉ asBytes ws := by
  intro hn
  unfold asBytes at hn
  obtain ⟨c, hc, e⟩ := List.mem_map.1 hn
  obtain ⟨h1, h2⟩ := printed_char h hc
  have e := congrArg UInt8.toNat e
  rw [UInt8.toNat_ofNat_of_lt' h1] at e
  exact h2 e

end HostProgramProof

/-- **C126, partial (programs).** If the host does not overrun the link, the messages returned are interpreted as the blocks of the
program it sends, in order; and when the program has arrived and `hasMessage()` is false, as all of them. -/
theorem link_program_partial {base calls : List Call} {arrived : List Byte} {ms : List (List Byte)} (hb : rxPending base = [])
    (h : Traffic true base calls arrived ms)
    (program : List (List Written)) (hp : ∀ ws ∈ program, Sendable ws) (ha : arrived <+: onWire (program.map asBytes)) :
    ∃ k ≤ program.length,
      List.Forall₂ (fun ws m => ∃ b, Block.ofString (textOf m) = .ok b ∧ List.Forall₂ ReadAs ws b.words) (program.take k) ms ∧
      (arrived = onWire (program.map asBytes) → ((after calls).call .hasMessage).2 = .bool false → k = program.length) := by
  have hl : ∀ l ∈ program.map asBytes, newline ∉ l := by
    intro l hl
    obtain ⟨ws, hw, rfl⟩ := List.mem_map.1 hl
    exact newline_asBytes (hp ws hw)
  obtain ⟨k, hk, e, hf⟩ := link_lines_partial hb h _ hl ha
  refine ⟨k, by simpa using hk, ?_, ?_⟩
  · rw [← List.map_take, List.forall₂_map_left_iff] at hf
    have hf := (List.forall₂_and_left (p := Sendable) _ _).2 ⟨fun ws hw => hp ws (List.mem_of_mem_take hw), hf⟩
    refine hf.imp fun ws m ⟨h1, h2⟩ => ?_
    obtain ⟨b, h3, h4⟩ := round_trip_partial ws h1.ok h1.words h1.length h1.codes
    exact ⟨b, by rw [h2, textOf_asBytes h1, h3], h4⟩
  · intro e1 e2
    rw [e1] at h
    have := congrArg List.length (link_complete _ hb h hl e2)
    rw [e] at this
    simp at this hk
    omega

/-! ## Without flow control -/

namespace HostProgramProof

theorem traffic_recv {base calls : List Call} {a : List Byte} {ms : List (List Byte)} (h : Traffic false base calls a ms) (bs : List Byte) :
    Traffic false base (calls ++ bs.map .recv) (a ++ bs) ms := by
  induction bs generalizing calls a with
  | nil => simpa using h
  | cons b bs ih => simpa using ih (h.recv b (by simp))

theorem pending_recv (calls : List Call) (hq : (rxPending calls).length ≤ 256) (bs : List Byte) :
    rxPending (calls ++ bs.map .recv) = (rxPending calls ++ bs).take 256 := by
  induction bs generalizing calls with
  | nil => simp [List.take_of_length_le hq]
  | cons b bs ih =>
    have e : calls ++ (b :: bs).map .recv = (calls ++ [.recv b]) ++ bs.map .recv := by simp
    rw [e]
    have h1 := rxPending_snoc calls (.recv b)
    by_cases hc : (rxPending calls).length < 256
    · rw [rxNext, if_pos (by exact hc)] at h1
      rw [ih _ (by rw [h1]; simp; omega), h1]
      simp
    · rw [rxNext, if_neg (by exact hc)] at h1
      rw [ih _ (by rw [h1]; exact hq), h1]
      have : (rxPending calls).length = 256 := by omega
      rw [List.take_append_of_le_length (by omega), List.take_append_of_le_length (by omega)]

theorem traffic_read {base calls : List Call} {a : List Byte} {ms : List (List Byte)} (h : Traffic false base calls a ms)
    (lines : List (List Byte)) (hl : ∀ l ∈ lines, newline ∉ l) (q : List Byte) (hq : rxPending calls = onWire lines ++ q) :
    ∃ calls', Traffic false base calls' a (ms ++ lines.map (· ++ [newline])) ∧ rxPending calls' = q := by
  induction lines generalizing calls ms with
  | nil => exact ⟨calls, by simpa using h, by simpa [onWire] using hq⟩
  | cons l lines ih =>
    have hq' : rxPending calls = l ++ newline :: (onWire lines ++ q) := by rw [hq]; simp [onWire]
    obtain ⟨h1, h2⟩ := (host_hasMessage_iff calls).2 l _ hq' (hl l (by simp))
    have := h.read ((host_hasMessage_iff calls).1.2 (by rw [hq']; simp)) h1
    obtain ⟨c, h3, h4⟩ := ih this (fun l h => hl l (by simp [h])) h2
    exact ⟨c, by simpa using h3, h4⟩

end HostProgramProof

namespace LinkExample

/-- A word. -/
def word (c : Char) (s : String) : Written := ⟨c.toNat, codes s⟩

/-- 84 times X1 and a Y, then X22, then Y5. -/
def first : List (List Written) := List.replicate 84 [word 'X' "1"] ++ [[word 'Y' ""]]
def program : List (List Written) := first ++ [[word 'X' "22"], [word 'Y' "5"]]

instance (c : Nat) : Decidable (PlainChar c) := by unfold PlainChar; infer_instance

theorem sendable {ws : List Written}
    (h : ws = [word 'X' "1"] ∨ ws = [word 'Y' ""] ∨ ws = [word 'X' "22"] ∨ ws = [word 'Y' "5"] ∨ ws = [word 'X' "2", word 'Y' "5"]) :
    Sendable ws := by
  rcases h with rfl | rfl | rfl | rfl | rfl <;>
    exact ⟨by unfold Written.Ok; decide, by decide, by decide, by decide, by decide⟩

theorem mem_program {ws : List Written} (h : ws ∈ program) :
    ws = [word 'X' "1"] ∨ ws = [word 'Y' ""] ∨ ws = [word 'X' "22"] ∨ ws = [word 'Y' "5"] := by
  simp only [program, first, List.mem_append, List.mem_replicate, List.mem_cons, List.not_mem_nil, or_false] at h
  tauto

/-- **C126 violated.** If the host sends the first 86 blocks without a pause, the end of the block X22 is lost; when everything stored
has been read, the rest of it, X2, and the next block, Y5, are read as one block, X2 Y5, which the program does not contain. -/
theorem link_program_violated : (∀ ws ∈ program, Sendable ws) ∧
    ∃ calls ms, Traffic false [] calls (onWire (program.map asBytes)) ms ∧
      ∃ m ∈ ms, (∃ b, Block.ofString (textOf m) = .ok b ∧ List.Forall₂ ReadAs [word 'X' "2", word 'Y' "5"] b.words) ∧
        ∀ ws ∈ program, ¬ ∃ b, Block.ofString (textOf m) = .ok b ∧ List.Forall₂ ReadAs ws b.words := by
  refine ⟨fun ws h => sendable (by have := mem_program h; tauto), ?_⟩
  have hfirst : ∀ l ∈ first.map asBytes, newline ∉ l := by
    intro l hl
    obtain ⟨ws, hw, rfl⟩ := List.mem_map.1 hl
    exact newline_asBytes (sendable (by have := mem_program (List.mem_append_left _ hw); tauto))
  have t1 := traffic_recv (Traffic.start (flow := false) (base := [])) (onWire ((first ++ [[word 'X' "22"]]).map asBytes))
  have p1 := pending_recv [] (by simp [rxPending]) (onWire ((first ++ [[word 'X' "22"]]).map asBytes))
  have e1 : (rxPending [] ++ onWire ((first ++ [[word 'X' "22"]]).map asBytes)).take 256 =
      onWire (first.map asBytes) ++ asBytes [word 'X' "2"] := by decide +kernel
  rw [e1] at p1
  obtain ⟨c2, t2, p2⟩ := traffic_read t1 _ hfirst _ p1
  have t3 := traffic_recv t2 (onWire [asBytes [word 'Y' "5"]])
  have p3 := pending_recv c2 (by rw [p2]; decide) (onWire [asBytes [word 'Y' "5"]])
  have hs : Sendable [word 'X' "2", word 'Y' "5"] := sendable (by simp)
  have e3 : (rxPending c2 ++ onWire [asBytes [word 'Y' "5"]]).take 256 = onWire [asBytes [word 'X' "2", word 'Y' "5"]] ++ [] := by
    rw [p2]; decide
  rw [e3] at p3
  obtain ⟨c4, t4, -⟩ := traffic_read t3 _ (by intro l hl; rw [List.mem_singleton.1 hl]; exact newline_asBytes hs) _ p3
  have ha : [] ++ onWire ((first ++ [[word 'X' "22"]]).map asBytes) ++ onWire [asBytes [word 'Y' "5"]] =
      onWire (program.map asBytes) := by
    simp [program, onWire]
  rw [ha] at t4
  obtain ⟨b, hb, hw⟩ := round_trip_partial _ hs.ok hs.words hs.length hs.codes
  have hm : Block.ofString (textOf (asBytes [word 'X' "2", word 'Y' "5"] ++ [newline])) = .ok b := by
    rw [textOf_line, ofString_newline, textOf_asBytes hs, hb]
  refine ⟨c4, _, t4, _, List.mem_append_right _ (List.mem_map_of_mem (List.mem_singleton_self _)), ⟨b, hm, hw⟩, ?_⟩
  rintro ws hws ⟨b', hb', hw'⟩
  rw [hm] at hb'
  cases hb'
  have l1 := hw.length_eq
  have l2 := hw'.length_eq
  rcases mem_program hws with rfl | rfl | rfl | rfl <;> simp [← l1] at l2

/-- C126: of three blocks two have arrived, and half of the third; the first has been read. -/
example : ∃ calls, Traffic true [] calls (onWire [asBytes [word 'X' "22"], asBytes [word 'Y' "5"]] ++ asBytes [word 'X' ""])
    [asBytes [word 'X' "22"] ++ [newline]] := by
  refine ⟨_, Traffic.recv _ (.read (.recv _ (.recv _ (.recv _ (.recv _ (.recv _ (.recv _ (.recv _ .start ?_) ?_) ?_) ?_) ?_) ?_) ?_) ?_ ?_) ?_⟩ <;>
    decide

/-- C126: the rest of a cut line, X2, is cleared by a line feed. -/
example : ∃ calls, Traffic true ([.recv 88, .recv 50] ++ [.recv newline]) calls [] [[88, 50, 10]] ∧
    ((after calls).call .hasMessage).2 = .bool false :=
  ⟨_, .read .start (by decide) (by decide), by decide⟩

end LinkExample

end Moovr.Props
