import Verif.Proofs.Source
import Mathlib.Tactic.SplitIfs

/-!
# The character set functions compute the specified units
-/

namespace TW

open Spec

theorem utf8Len_pos (b : Byte) : 1 ≤ utf8Len b := by unfold utf8Len; split_ifs <;> omega
theorem utf8Len_le (b : Byte) : utf8Len b ≤ 8 := by unfold utf8Len; split_ifs <;> omega

theorem ulen_pos (e : Enc) (f : Nat → Byte) (k : Nat) : 1 ≤ ulen e f k := by
  cases e <;> simp only [ulen]
  · exact utf8Len_pos _
  · split_ifs <;> omega
  all_goals omega

theorem ulen_le (e : Enc) (f : Nat → Byte) (k : Nat) : ulen e f k ≤ 8 := by
  cases e <;> simp only [ulen]
  · exact utf8Len_le _
  · split_ifs <;> omega
  all_goals omega

theorem charLengthTab_eq (b : Byte) (hb : b < 256) :
    charLengthTab b = if 0x80 ≤ b ∧ b < 0xC0 then 0 else utf8Len b := by
  have : ∀ y : Fin 256, charLengthTab y.1 = if 0x80 ≤ y.1 ∧ y.1 < 0xC0 then 0 else utf8Len y.1 := by
    decide +kernel
  exact this ⟨b, hb⟩

theorem max_charLength (b : Byte) (hb : b < 256) : max 1 (charLengthTab b) = utf8Len b := by
  rw [charLengthTab_eq b hb]
  simp only [utf8Len]
  split_ifs <;> omega

theorem slice_succ (f : Nat → Byte) (k n : Nat) :
    slice f k (n + 1) = f k :: slice f (k + 1) n := by
  simp only [slice, List.range_succ_eq_map, List.map_cons, List.map_map, Nat.add_zero]
  congr 1
  apply List.map_congr_left
  intro i _
  simp only [Function.comp]
  congr 1
  omega

@[simp] theorem slice_length (f : Nat → Byte) (k n : Nat) : (slice f k n).length = n := by
  simp [slice]

theorem slice_zero (f : Nat → Byte) (k : Nat) : slice f k 0 = [] := rfl

theorem slice_append (f : Nat → Byte) (k m n : Nat) :
    slice f k (m + n) = slice f k m ++ slice f (k + m) n := by
  induction m generalizing k with
  | zero => simp [slice_zero]
  | succ m ih =>
    rw [show m + 1 + n = m + n + 1 by omega, slice_succ, slice_succ, ih,
      show k + 1 + m = k + (m + 1) by omega]
    rfl

theorem isCont (x : Nat) (hx : x < 256) : (x &&& 0xC0 ≠ 0x80) ↔ ¬ (0x80 ≤ x ∧ x < 0xC0) := by
  have : ∀ y : Fin 256, (y.1 &&& 0xC0 ≠ 0x80) ↔ ¬ (0x80 ≤ y.1 ∧ y.1 < 0xC0) := by decide +kernel
  exact this ⟨x, hx⟩

theorem and_3F (x : Nat) : x &&& 0x3F = x % 64 := Nat.and_two_pow_sub_one_eq_mod x 6

theorem shl6_or (v x : Nat) (hx : x < 64) :
    ((v <<< 6) % 2 ^ 32) ||| x = (v * 64 + x) % 2 ^ 32 := by
  have h1 : (v <<< 6) % 2 ^ 32 = 2 ^ 6 * (v % 2 ^ 26) := by
    rw [Nat.shiftLeft_eq]; omega
  rw [h1, ← Nat.two_pow_add_eq_or_of_lt (by omega : x < 2 ^ 6)]
  omega

theorem utf8Cont_eq (bs : List Byte) (hb : ∀ b ∈ bs, b < 256) (v : Nat) :
    Enc.utf8Cont bs v = (contVal bs v).getD 0x7FFFFFFF := by
  induction bs generalizing v with
  | nil => rfl
  | cons b bs ih =>
    have hb0 := hb b (by simp)
    unfold Enc.utf8Cont contVal
    simp only
    by_cases hc : 0x80 ≤ b ∧ b < 0xC0
    · rw [if_neg (by rw [isCont b hb0]; simpa using hc), if_pos hc, ih (fun x hx => hb x (by simp [hx])),
        and_3F, shl6_or _ _ (by omega), show b % 64 = b - 0x80 by omega]
    · rw [if_pos (by rw [isCont b hb0]; exact hc), if_neg hc]
      rfl

theorem and_lead (b : Nat) (hb : b < 256) (n : Nat) (h1 : 2 ≤ n) (h2 : n ≤ 8) :
    b &&& (0x1F >>> (n - 2)) = b % 2 ^ (7 - n) := by
  have : ∀ y : Fin 256, ∀ m : Fin 7, y.1 &&& (0x1F >>> m.1) = y.1 % 2 ^ (5 - m.1) := by
    decide +kernel
  have := this ⟨b, hb⟩ ⟨n - 2, by omega⟩
  rw [this, show 5 - (n - 2) = 7 - n by omega]

theorem utf8Decode_eq (f : Nat → Byte) (hf : ∀ i, f i < 256) (k : Nat) :
    Enc.utf8Decode (slice f k (utf8Len (f k))) = utf8Val f k := by
  unfold utf8Val
  simp only
  obtain ⟨n, hn⟩ : ∃ n, utf8Len (f k) = n + 1 := ⟨utf8Len (f k) - 1, by have := utf8Len_pos (f k); omega⟩
  have hn8 := utf8Len_le (f k)
  rw [hn, slice_succ]
  unfold Enc.utf8Decode
  by_cases hb : f k < 0x80
  · simp only
    rw [if_neg (by omega), if_pos hb]
  · simp only
    rw [if_pos (by omega), if_neg hb]
    cases n with
    | zero => simp [slice_zero]
    | succ n =>
      rw [if_neg (by omega), show n + 1 + 1 - 1 = n + 1 by omega, slice_succ]
      simp only
      rw [← slice_succ, utf8Cont_eq, slice_length,
        show n + 1 - 1 = (n + 2) - 2 by omega, and_lead _ (hf k) _ (by omega) (by omega)]
      intro b hb
      simp only [slice, List.mem_map] at hb
      obtain ⟨i, _, rfl⟩ := hb
      exact hf _

theorem shl8 (a b : Nat) (ha : a < 2 ^ 24) (hb : b < 256) :
    ((a <<< 8) + b) % 2 ^ 32 = a * 256 + b := by
  rw [Nat.shiftLeft_eq]; omega

theorem unit16_msb (be : Bool) (f : Nat → Byte) (hf : ∀ i, f i < 256) (k : Nat) :
    ((f (k + msb be) <<< 8) + f (k + lsb be)) % 2 ^ 32 = unit16 be f k := by
  rw [shl8 _ _ (by have := hf (k + msb be); omega) (hf _)]
  cases be <;> rfl

theorem unit16_lt (be : Bool) (f : Nat → Byte) (hf : ∀ i, f i < 256) (k : Nat) :
    unit16 be f k < 65536 := by
  have h1 := hf k
  have h2 := hf (k + 1)
  unfold unit16
  split_ifs <;> omega

theorem utf16_size (be : Bool) (f : Nat → Byte) (hf : ∀ i, f i < 256) (k : Nat) :
    (if 0x03 < (f (k + msb be) + 2 ^ 32 - 0xD8) % 2 ^ 32 then 2 else 4) = ulen (.utf16 be) f k := by
  have h0 := hf (k + msb be)
  have h1 := hf k
  have h2 := hf (k + 1)
  cases be <;> simp only [msb, ulen, unit16, Bool.false_eq_true, if_false, if_true, Nat.add_zero] at *
    <;> split_ifs <;> omega

theorem utf16_pair (be : Bool) (f : Nat → Byte) (hf : ∀ i, f i < 256) (k : Nat)
    (h : 0xD800 ≤ unit16 be f k ∧ unit16 be f k < 0xDC00) :
    Enc.utf16Pair (unit16 be f k) (f (k + (2 + msb be))) (f (k + (2 + lsb be)))
      = uval (.utf16 be) f k := by
  have h0 := hf (k + 2)
  have h1 := hf (k + 3)
  have hu := unit16_lt be f hf k
  simp only [uval, if_pos h]
  generalize hu' : unit16 be f k = u at h hu
  unfold Enc.utf16Pair
  cases be <;>
    simp only [msb, lsb, unit16, Bool.false_eq_true, if_false, if_true, Nat.add_zero,
      Nat.shiftLeft_eq, show k + (2 + 1) = k + 3 by omega] <;>
    split_ifs <;> omega

end TW
