import Verif.Props.Iterators
import Verif.Proofs.CharsetLemmas

/-!
# Properties C63, C64: code page index and differences of iterators
-/

namespace TW

/-- The nine pages keep the ASCII codes and the control codes 128 to 159. -/
theorem pages_low : ∀ idx, 1 ≤ idx → idx ≤ 9 → ∀ b, b < 160 → ucharcode idx b = b := by
  have h : ∀ i : Fin 9, ∀ b : Fin 160, ucharcode (i.val + 1) b.val = b.val := by decide +kernel
  intro idx h1 h2 b hb
  have := h ⟨idx - 1, by omega⟩ ⟨b, hb⟩
  simpa [show idx - 1 + 1 = idx by omega] using this

theorem pages_short : ∀ idx, 1 ≤ idx → idx ≤ 9 → ∀ b, b < 256 → ucharcode idx b < 2 ^ 16 := by
  have h : ∀ i : Fin 9, ∀ b : Fin 256, ucharcode (i.val + 1) b.val < 2 ^ 16 := by decide +kernel
  intro idx h1 h2 b hb
  have := h ⟨idx - 1, by omega⟩ ⟨b, hb⟩
  simpa [show idx - 1 + 1 = idx by omega] using this

/-- C63: the constructor of a code page accepts the indices 1 to 9 and throws for all others; the accepted pages keep the
bytes below 160, and give 16 bit codes for all bytes. -/
theorem C63_page_index (idx : Nat) :
    (isoLatinCtor idx = .ok () ↔ 1 ≤ idx ∧ idx ≤ 9) ∧
    (isoLatinCtor idx = .stop (.throw .CodePageIndexNotSupported) ↔ idx = 0 ∨ 9 < idx) ∧
    (isoLatinCtor idx = .ok () → ∀ b, b < 256 → ucharcode idx b < 2 ^ 16 ∧ (b < 160 → ucharcode idx b = b)) := by
  have h : isoLatinCtor idx = .ok () ↔ 1 ≤ idx ∧ idx ≤ 9 := by
    unfold isoLatinCtor
    split <;> simp <;> omega
  refine ⟨h, ?_, fun h1 b hb => ?_⟩
  · unfold isoLatinCtor
    split <;> simp <;> omega
  · obtain ⟨h2, h3⟩ := h.1 h1
    exact ⟨pages_short idx h2 h3 b hb, pages_low idx h2 h3 b⟩

example : isoLatinCtor 9 = .ok () ∧ ucharcode 9 164 = 8364 := by decide

theorem incrN_src (k : Nat) (it : SrcIt) : incrN k it = (.ok (), { it with itr := it.itr + k }) := by
  induction k with
  | zero => rfl
  | succ k ih =>
    show (incrN k >>= fun _ => Iter.incr) _ = _
    rw [M.bind_ok ih]
    rfl

theorem incrN_cstr (k : Nat) (it : CStr) (h : it.pos < 2 ^ 32) :
    incrN k it = (.ok (), { it with pos := (it.pos + k) % 2 ^ 32 }) := by
  induction k with
  | zero => simp only [incrN, Nat.add_zero, Nat.mod_eq_of_lt h]; rfl
  | succ k ih =>
    show (incrN k >>= fun _ => Iter.incr) _ = _
    rw [M.bind_ok ih]
    simp only [Iter.incr, CStr.incr, M.modify]
    congr 2
    omega

/-- C64, chunk iterator: the difference of an iterator, after `k` increments, to itself before is `k`, and the reverse
difference throws, and the one to an iterator on a chunk of another size. In a chunk `endOfChunk` tells that all bytes were passed,
and until then `getPosition` is the number of bytes passed; behind the end of the chunk it is 0. -/
theorem C64_srciterator (it : SrcIt) (k : Nat) :
    ∃ it', incrN k it = (.ok (), it') ∧ it'.minus it = .ok k ∧
      (k ≠ 0 → it.minus it' = .stop (.throw .IllegalParam)) ∧
      (∀ b : SrcIt, b.chunk.length ≠ it.chunk.length → it'.minus b = .stop (.throw .IllegalParam)) ∧
      (it.itr = 0 → (it'.endOfChunk = true ↔ it.chunk.length ≤ k) ∧ (k ≤ it.chunk.length → it'.getPosition = k) ∧
        (it.chunk.length < k → it'.getPosition = 0)) := by
  refine ⟨_, incrN_src k it, ?_, ?_, ?_, ?_⟩
  · simp [SrcIt.minus]
  · intro hk
    have : it.itr < it.itr + k := by omega
    simp [SrcIt.minus, this]
  · intro b hb
    simp [SrcIt.minus, hb]
  · intro h0
    simp only [SrcIt.endOfChunk, SrcIt.getPosition, h0, Nat.zero_add, decide_eq_true_eq, true_and]
    exact ⟨fun hk => by rw [if_pos hk], fun hk => by rw [if_neg (by omega)]⟩

example : ∃ it', incrN 2 (SrcIt.mk' [1, 2, 3] true) = (.ok (), it') ∧ it'.minus (SrcIt.mk' [1, 2, 3] true) = .ok 2 :=
  ⟨_, rfl, rfl⟩

/-- C64, string iterator: the differences after `k` increments are `k` and `-k`, up to 2^31 increments. Setting the
position goes to the offset or to the end of the string. -/
theorem C64_cstring (it : CStr) (hp : it.pos < 2 ^ 32) (k : Nat) (hk : k < 2 ^ 31) :
    (∃ it', incrN k it = (.ok (), it') ∧ it'.minus it = k ∧ it.minus it' = -(k : Int)) ∧
    ∀ i, (it.setPos i).pos = min i it.size := by
  refine ⟨⟨_, incrN_cstr k it hp, ?_, ?_⟩, fun i => ?_⟩
  · simp only [CStr.minus]
    have : ((it.pos + k) % 2 ^ 32 + 2 ^ 32 - it.pos) % 2 ^ 32 = k := by omega
    rw [this, if_pos hk]
  · simp only [CStr.minus]
    rcases Nat.eq_zero_or_pos k with h0 | h0
    · subst h0
      have : (it.pos + 2 ^ 32 - (it.pos + 0) % 2 ^ 32) % 2 ^ 32 = 0 := by omega
      rw [this]; rfl
    · have : (it.pos + 2 ^ 32 - (it.pos + k) % 2 ^ 32) % 2 ^ 32 = 2 ^ 32 - k := by omega
      rw [this]
      split <;> omega
  · simp only [CStr.setPos]
    split <;> omega

example : ∃ it', incrN 2 (CStr.mk' [1, 2, 3]) = (.ok (), it') ∧ (CStr.mk' [1, 2, 3]).minus it' = -2 :=
  let ⟨it', h1, _, h2⟩ := (C64_cstring (CStr.mk' [1, 2, 3]) (by decide) 2 (by decide)).1
  ⟨it', h1, h2⟩

/-- C64, stream iterator: as long as no new buffer is needed the difference after `k` increments is `k`. -/
theorem C64_istream_partial (it : IStreamIt) (k : Nat) (h : it.readpos + k < it.buf.length) (hl : it.buf.length < 2 ^ 31) :
    ∃ it', incrN k it = (.ok (), it') ∧ it'.minus it = k := by
  have key : ∀ k, it.readpos + k < it.buf.length → incrN k it = (.ok (), { it with readpos := it.readpos + k }) := by
    intro k
    induction k with
    | zero => intro _; rfl
    | succ k ih =>
      intro h
      show (incrN k >>= fun _ => Iter.incr) _ = _
      rw [M.bind_ok (ih (by omega))]
      simp only [Iter.incr, IStreamIt.incr]
      rw [if_neg (by omega)]
      rfl
  refine ⟨_, key k h, ?_⟩
  simp only [IStreamIt.minus]
  have : (it.readpos + k + 2 ^ 64 - it.readpos) % 2 ^ 32 = k := by omega
  rw [this, if_pos (by omega)]

example : ∃ it', incrN 2 (⟨[], 8, [1, 2, 3], 0, 0⟩ : IStreamIt) = (.ok (), it') ∧
    it'.minus (⟨[], 8, [1, 2, 3], 0, 0⟩ : IStreamIt) = 2 :=
  C64_istream_partial _ 2 (by decide) (by decide)

/-- C64 is false for the stream iterator: the difference is the one of the positions in the buffers, which are not the
same buffers; after one increment into the next buffer it is 0, and -1 in others. -/
theorem C64_istream_false :
    (∃ it0 it, IStreamIt.mk' [.data [1], .data [2]] 1 = (.ok (), it0) ∧ incrN 1 it0 = (.ok (), it) ∧ it.minus it0 = 0) ∧
    (∃ it0 it1 it, IStreamIt.mk' [.data [1, 2], .data [3]] 2 = (.ok (), it0) ∧ incrN 1 it0 = (.ok (), it1) ∧
      incrN 1 it1 = (.ok (), it) ∧ it.minus it1 = -1) :=
  ⟨⟨_, _, rfl, rfl, rfl⟩, ⟨_, _, _, rfl, rfl, rfl, rfl⟩⟩

end TW
