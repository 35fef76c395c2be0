import Verif.Proofs.Buffers
import Verif.Model.Exception

/-!
# Properties of StaticBuffer, Encoder and exception (C13, C17, C18, C49)
-/

namespace TW

open Spec

/-- C13. For a nonzero code below 2^32 there is a text `&#x...;` that denotes it such
that `encode` on a buffer of `n` cells inside a larger memory: never touches cells
from `n` on, stores the text with a null byte as far as it fits, and returns true
exactly if everything fits. -/
theorem C13_encoder (c : Nat) (h0 : 0 < c) (h32 : c < 2 ^ 32) :
    ∃ txt, IsEntity txt c ∧ ∀ (mem : List Byte) (n : Nat), n ≤ mem.length →
      ∃ mem', encode c mem n = (.ok (decide (txt.length + 1 ≤ n)), mem') ∧
        mem'.length = mem.length ∧ (∀ j, n ≤ j → mem'[j]? = mem[j]?) ∧
        mem'.take (min n (txt.length + 1)) = (txt ++ [0]).take n :=
  ⟨entityText c, entityText_isEntity c h0 h32, fun mem n h => encode_run c mem n h⟩

example : (encode 0x20AC [1, 2, 3, 4, 5, 6, 7, 8, 9, 10, 11] 10)
    = (.ok true, [38, 35, 120, 50, 48, 97, 99, 59, 0, 10, 11]) := by decide +kernel

/-- C13 as far as reading back is concerned: `IsEntity` determines the code. -/
theorem C13_entity_denotes_one_code (txt : List Byte) (c d : Nat) (h1 : IsEntity txt c)
    (h2 : IsEntity txt d) : c = d := by
  have hd : ∀ a b, a < 16 → b < 16 → Spec.hexDigit a = Spec.hexDigit b → a = b := by
    intro a b ha hb h
    unfold Spec.hexDigit at h
    split at h <;> split at h <;> omega
  have key : ∀ (l : List Byte) (c : Nat), IsHex l c → ∀ d, IsHex l d → c = d := by
    intro l c h
    have hne : ∀ (l : List Byte) (c : Nat), IsHex l c → l ≠ [] := by
      intro l c h; cases h <;> simp
    induction h with
    | digit x hx hx' =>
      intro d hd'
      generalize hl : [Spec.hexDigit x] = l at hd'
      cases hd' with
      | digit y hy hy' => simp at hl; exact hd _ _ hx' hy' hl
      | snoc bs n y hbs hy =>
        have h := congrArg List.length hl
        have h' : bs.length ≠ 0 := fun h0 => hne _ _ hbs (List.length_eq_zero_iff.1 h0)
        simp only [List.length_append, List.length_cons, List.length_nil] at h
        omega
    | snoc bs n x hbs hx ih =>
      intro d hd'
      generalize hl : bs ++ [Spec.hexDigit x] = l at hd'
      cases hd' with
      | digit y hy hy' =>
        have h := congrArg List.length hl
        have h' : bs.length ≠ 0 := fun h0 => hne _ _ hbs (List.length_eq_zero_iff.1 h0)
        simp only [List.length_append, List.length_cons, List.length_nil] at h
        omega
      | snoc bs' n' y hbs' hy =>
        obtain ⟨e1, e2⟩ := List.append_inj' hl rfl
        simp at e2
        subst e1
        rw [ih n' hbs', hd _ _ hx hy e2]
  obtain ⟨ds, hds, rfl⟩ := h1
  obtain ⟨ds', hds', h⟩ := h2
  simp only [List.append_cancel_right_eq, List.append_cancel_left_eq] at h
  subst h
  exact key _ _ hds _ hds'

example : IsEntity (ascii "&#x2f;") 0x2F :=
  ⟨[50, 102], IsHex.snoc [50] 2 15 (IsHex.digit 2 (by decide) (by decide)) (by decide), rfl⟩

/-- Run a history of operations on a static buffer. -/
def bufRun : List BufOp → M SBuf Unit
  | [] => pure ()
  | op :: ops => do SBuf.exec op; bufRun ops

/-- C17. After any history of `push_back`, `append`, `resize` and `clear` on a static
buffer with `n` cells, own or foreign memory, the content and the overflow flag are
those of a string of capacity `n`; nothing outside the cells was accessed (that would
be `ub`). Sizes of appended strings are such that `size_t` does not overflow. -/
theorem C17_static_buffer (n : Nat) (mem : List Byte) (hm : n ≤ mem.length) (ops : List BufOp)
    (ha : ∀ cc, BufOp.append cc ∈ ops → n + cc.length < 2 ^ 64) :
    ∃ b, bufRun ops (SBuf.foreign mem n) = (.ok (), b) ∧ b.ar.length = mem.length ∧
      (⟨b.content, b.overflow⟩ : Bounded) = ops.foldl (Bounded.step n) ⟨[], false⟩ := by
  have key : ∀ (ops : List BufOp) (b : SBuf), b.Ok → b.size = n →
      (∀ cc, BufOp.append cc ∈ ops → n + cc.length < 2 ^ 64) →
      ∃ b', bufRun ops b = (.ok (), b') ∧ b'.ar.length = b.ar.length ∧
        (⟨b'.content, b'.overflow⟩ : Bounded)
          = ops.foldl (Bounded.step n) ⟨b.content, b.overflow⟩ := by
    intro ops
    induction ops with
    | nil => intro b _ _ _; exact ⟨b, rfl, rfl, rfl⟩
    | cons op ops ih =>
      intro b hok hs ha
      have ha' : ∀ cc, BufOp.append cc ∈ ops → n + cc.length < 2 ^ 64 :=
        fun cc h => ha cc (List.mem_cons_of_mem _ h)
      have step : ∃ b1, SBuf.exec op b = (.ok (), b1) ∧ b1.Ok ∧ b1.size = b.size ∧
          b1.ar.length = b.ar.length ∧
          (⟨b1.content, b1.overflow⟩ : Bounded) = Bounded.step n ⟨b.content, b.overflow⟩ op := by
        cases op with
        | push c =>
          obtain ⟨b1, h1, h2, h3, h4, h5, h6, -⟩ := SBuf.push_back_run hok c
          exact ⟨b1, h1, h2, h3, h4, by rw [h5, h6, hs]; rfl⟩
        | append cc =>
          obtain ⟨b1, h1, h2, h3, h4, h5, h6⟩ :=
            SBuf.append_run hok cc (by rw [hs]; exact ha cc (List.mem_cons_self))
          exact ⟨b1, h1, h2, h3, h4, by rw [h5, h6, hs]; rfl⟩
        | resize m c =>
          obtain ⟨b1, h1, h2, h3, h4, h5, h6⟩ := SBuf.resize_run hok m (c.getD 0)
          exact ⟨b1, by cases c <;> exact h1, h2, h3, h4, by rw [h5, h6, hs]; rfl⟩
        | clear =>
          refine ⟨_, rfl, ⟨Nat.zero_le _, hok.mem⟩, rfl, rfl, ?_⟩
          simp [SBuf.content, Bounded.step]
      obtain ⟨b1, r1, o1, s1, l1, e1⟩ := step
      obtain ⟨b2, r2, l2, e2⟩ := ih b1 o1 (by rw [s1, hs]) ha'
      refine ⟨b2, ?_, by rw [l2, l1], ?_⟩
      · show (SBuf.exec op >>= fun _ => bufRun ops) b = _
        rw [M.bind_ok r1, r2]
      · rw [e2, e1]; rfl
  obtain ⟨b, h1, h2, h3⟩ := key ops (SBuf.foreign mem n) ⟨Nat.zero_le _, hm⟩ rfl ha
  exact ⟨b, h1, h2, by rw [h3]; simp [SBuf.foreign, SBuf.content]⟩

example : ∃ b, bufRun [.append [1, 2], .push 3, .push 4, .resize 2 none, .push 9]
    (SBuf.foreign [0, 0, 0, 7] 3) = (.ok (), b) ∧ b.ar.length = 4 ∧
    (⟨b.content, b.overflow⟩ : Bounded) = ⟨[1, 2, 9], true⟩ :=
  C17_static_buffer 3 [0, 0, 0, 7] (by decide) _ (by simp)

/-- C18 does not hold: the element at index `size()` is not rejected, and if the buffer
is full the access is outside of its memory. -/
theorem C18_checked_access_false :
    (∃ b, bufRun [.push 65] (SBuf.alloc 1) = (.ok (), b) ∧ b.content.length = 1 ∧
      SBuf.at_ 1 b = .stop .ub) ∧
    (∃ b, bufRun [.push 65] (SBuf.alloc 2) = (.ok (), b) ∧ b.content.length = 1 ∧
      SBuf.at_ 1 b = .ok 0) :=
  ⟨⟨_, rfl, rfl, rfl⟩, ⟨_, rfl, rfl, rfl⟩⟩

/-- C18, what holds: indices below `size()` give the element, indices above `size()`
raise the exception. Missing is the index `size()` itself. -/
theorem C18_checked_access_partial (b : SBuf) (hpos : b.pos ≤ b.size) (hmem : b.size ≤ b.ar.length)
    (i : Nat) :
    (i < b.content.length → ∃ x, b.content[i]? = some x ∧ SBuf.at_ i b = .ok x) ∧
    (b.content.length < i → SBuf.at_ i b = .stop (.throw .DimOutOfRange)) := by
  have hl := SBuf.content_length ⟨hpos, hmem⟩
  constructor
  · intro h
    refine ⟨b.ar[i], ?_, ?_⟩
    · simp only [SBuf.content]
      rw [List.getElem?_take, if_pos (by omega), List.getElem?_eq_getElem (by omega)]
    · unfold SBuf.at_
      rw [if_neg (by omega), List.getElem?_eq_getElem (by omega)]
  · intro h
    unfold SBuf.at_
    rw [if_pos (by omega)]

example : ∃ b, bufRun [.append [65, 66]] (SBuf.alloc 3) = (.ok (), b) ∧ SBuf.at_ 1 b = .ok 66 ∧
    SBuf.at_ 3 b = .stop (.throw .DimOutOfRange) := ⟨_, rfl, rfl, rfl⟩

/-- The name of a cause. -/
def causeName : Cause → String
  | .Unknown => "Unknown" | .DimOutOfRange => "DimOutOfRange"
  | .StateNumbersNotAscending => "StateNumbersNotAscending"
  | .InvalidParamState => "InvalidParamState" | .InvalidParamChar => "InvalidParamChar"
  | .DuplicateStateTransition => "DuplicateStateTransition" | .InvalidState => "InvalidState"
  | .IllegalParam => "IllegalParam" | .IllegalAttributeName => "IllegalAttributeName"
  | .OutOfMem => "OutOfMem" | .ArrayBoundsReadWrite => "ArrayBoundsReadWrite"
  | .NotAllowedOperation => "NotAllowedOperation" | .FileReadError => "FileReadError"
  | .IllegalXmlHeader => "IllegalXmlHeader" | .InvalidTagOffset => "InvalidTagOffset"
  | .CorruptTagStack => "CorruptTagStack"
  | .CodePageIndexNotSupported => "CodePageIndexNotSupported"

/-- C49 does not hold: six causes have a wrong text; for `CodePageIndexNotSupported`
`what()` returns the null pointer. -/
theorem C49_what_false :
    (∀ c ∈ [Cause.NotAllowedOperation, .FileReadError, .IllegalXmlHeader, .InvalidTagOffset,
      .CorruptTagStack, .CodePageIndexNotSupported], what c ≠ some (some (causeName c))) ∧
    what .CodePageIndexNotSupported = some none ∧
    what .FileReadError = some (some "IllegalXmlHeader") := by
  decide +kernel

/-- C49, what holds: the causes but those from `NotAllowedOperation` on are named correctly, and for every cause
`what()` reads inside its table. -/
theorem C49_what_partial (c : Cause) :
    (c ∉ [Cause.NotAllowedOperation, .FileReadError, .IllegalXmlHeader, .InvalidTagOffset,
      .CorruptTagStack, .CodePageIndexNotSupported] → what c = some (some (causeName c))) ∧ (what c).isSome := by
  cases c <;> decide +kernel

example : what .OutOfMem = some (some "OutOfMem") := (C49_what_partial .OutOfMem).1 (by decide)

/-- C49, the wrong texts: two names in one, then each time the name of the next cause. -/
theorem C49_what_wrong :
    what .NotAllowedOperation = some (some (causeName .NotAllowedOperation ++ causeName .FileReadError)) ∧
    what .FileReadError = some (some (causeName .IllegalXmlHeader)) ∧
    what .IllegalXmlHeader = some (some (causeName .InvalidTagOffset)) ∧
    what .InvalidTagOffset = some (some (causeName .CorruptTagStack)) ∧
    what .CorruptTagStack = some (some (causeName .CodePageIndexNotSupported)) ∧
    what .CodePageIndexNotSupported = some none := by
  decide +kernel

end TW
