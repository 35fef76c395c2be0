import Verif.Spec.Text
import Verif.Proofs.Decode

/-!
# Printed characters decode to themselves
-/

namespace TW

open Spec

theorem or_80 (x : Nat) : (x &&& 0x3F) ||| 0x80 = 0x80 + x % 64 := by
  rw [and_3F, Nat.or_comm]
  have := Nat.two_pow_add_eq_or_of_lt (by omega : x % 64 < 2 ^ 7) 1
  simpa using this.symm

theorem shr (c n : Nat) : c >>> n = c / 2 ^ n := Nat.shiftRight_eq_div_pow c n

theorem lead_bits (v pp : Nat) (h1 : 1 ≤ pp) (h5 : pp ≤ 5) (hv : v < 2 ^ (6 - pp)) :
    ((v % 256) &&& ((255 - (0xFF <<< (8 - (pp + 1))) % 256) / 2 + 128)) |||
      ((0xFF <<< (8 - (pp + 1))) % 256) = (0xFF <<< (8 - (pp + 1))) % 256 + v := by
  have : ∀ p : Fin 6, ∀ v : Fin 32, 1 ≤ p.1 → v.1 < 2 ^ (6 - p.1) →
      ((v.1 % 256) &&& ((255 - (0xFF <<< (8 - (p.1 + 1))) % 256) / 2 + 128)) |||
      ((0xFF <<< (8 - (p.1 + 1))) % 256) = (0xFF <<< (8 - (p.1 + 1))) % 256 + v.1 := by
    decide +kernel
  have h32 : 2 ^ (6 - pp) ≤ 2 ^ 5 := Nat.pow_le_pow_right (by omega) (by omega)
  exact this ⟨pp, by omega⟩ ⟨v, by omega⟩ h1 hv

theorem utf8Print_multi (c pp : Nat) (hc : 127 < c) (hpp : Enc.utf8Pp c = pp) (h1 : 1 ≤ pp)
    (h5 : pp ≤ 5) (hv : c / 2 ^ (pp * 6) < 2 ^ (6 - pp)) :
    Enc.utf8Print c
      = ((0xFF <<< (8 - (pp + 1))) % 256 + c / 2 ^ (pp * 6)) :: Enc.utf8Tail c pp := by
  unfold Enc.utf8Print
  rw [if_neg (by omega)]
  simp only [hpp, shr]
  rw [lead_bits _ pp h1 h5 hv]

theorem utf8Pp_eq (c : Nat) : Enc.utf8Pp c = if c < 0x800 then 1 else if c < 0x10000 then 2
    else if c < 0x200000 then 3 else if c < 0x4000000 then 4 else 5 := by
  unfold Enc.utf8Pp
  simp only [Nat.reduceShiftLeft]

theorem utf8Print_eq (c : Nat) (hc : c ≤ 0x7FFFFFFF) : Enc.utf8Print c = rfc2279 c := by
  unfold rfc2279
  by_cases h1 : c < 0x80
  · rw [if_pos h1]
    unfold Enc.utf8Print
    rw [if_pos (by omega)]
  rw [if_neg h1]
  have hpp := utf8Pp_eq c
  by_cases h2 : c < 0x800
  · rw [if_pos h2] at hpp
    rw [if_pos h2, utf8Print_multi c 1 (by omega) hpp (by omega) (by omega) (by omega)]
    simp [Enc.utf8Tail, or_80, shr]
  rw [if_neg h2] at hpp
  rw [if_neg h2]
  by_cases h3 : c < 0x10000
  · rw [if_pos h3] at hpp
    rw [if_pos h3, utf8Print_multi c 2 (by omega) hpp (by omega) (by omega) (by omega)]
    simp [Enc.utf8Tail, or_80, shr]
  rw [if_neg h3] at hpp
  rw [if_neg h3]
  by_cases h4 : c < 0x200000
  · rw [if_pos h4] at hpp
    rw [if_pos h4, utf8Print_multi c 3 (by omega) hpp (by omega) (by omega) (by omega)]
    simp [Enc.utf8Tail, or_80, shr]
  rw [if_neg h4] at hpp
  rw [if_neg h4]
  by_cases h5 : c < 0x4000000
  · rw [if_pos h5] at hpp
    rw [if_pos h5, utf8Print_multi c 4 (by omega) hpp (by omega) (by omega) (by omega)]
    simp [Enc.utf8Tail, or_80, shr]
  rw [if_neg h5] at hpp
  rw [if_neg h5, utf8Print_multi c 5 (by omega) hpp (by omega) (by omega) (by omega)]
  simp [Enc.utf8Tail, or_80, shr]

/-! ## Decoding of encoded characters -/

theorem contVal_cons (x : Nat) (bs : List Byte) (v : Nat) (hx : x < 64) :
    contVal ((0x80 + x) :: bs) v = contVal bs ((v * 64 + x) % 2 ^ 32) := by
  rw [contVal, if_pos (by omega), show 0x80 + x - 0x80 = x by omega]

theorem rfc2279_dec (c : Nat) (hc : c ≤ 0x7FFFFFFF) (f : Nat → Byte) (k : Nat)
    (h : At f k (rfc2279 c)) :
    utf8Len (f k) = (rfc2279 c).length ∧ utf8Val f k = c := by
  unfold rfc2279 at *
  unfold utf8Val
  split_ifs at * with h1 h2 h3 h4 h5 <;>
    simp only [At, Nat.add_assoc, Nat.reduceAdd, and_true] at h
  · rw [h]
    refine ⟨?_, by rw [if_pos h1]⟩
    unfold utf8Len
    rw [if_pos (by omega)]
    rfl
  · have hl : utf8Len (f k) = 2 := by unfold utf8Len; split_ifs <;> omega
    refine ⟨hl, ?_⟩
    dsimp only
    rw [hl]
    simp only [Nat.add_one_sub_one, slice_succ, slice_zero, Nat.add_assoc, Nat.reduceAdd, h.2,
      Nat.reduceSub]
    rw [if_neg (by omega), if_neg (by omega), contVal_cons _ _ _ (by omega)]
    simp only [contVal, Option.getD_some]
    omega
  · have hl : utf8Len (f k) = 3 := by unfold utf8Len; split_ifs <;> omega
    refine ⟨hl, ?_⟩
    dsimp only
    rw [hl]
    simp only [slice_succ, slice_zero, Nat.add_assoc, Nat.reduceAdd, h.2, Nat.reduceSub]
    rw [if_neg (by omega), if_neg (by omega), contVal_cons _ _ _ (by omega),
      contVal_cons _ _ _ (by omega)]
    simp only [contVal, Option.getD_some]
    omega
  · have hl : utf8Len (f k) = 4 := by unfold utf8Len; split_ifs <;> omega
    refine ⟨hl, ?_⟩
    dsimp only
    rw [hl]
    simp only [slice_succ, slice_zero, Nat.add_assoc, Nat.reduceAdd, h.2, Nat.reduceSub]
    rw [if_neg (by omega), if_neg (by omega), contVal_cons _ _ _ (by omega),
      contVal_cons _ _ _ (by omega), contVal_cons _ _ _ (by omega)]
    simp only [contVal, Option.getD_some]
    omega
  · have hl : utf8Len (f k) = 5 := by unfold utf8Len; split_ifs <;> omega
    refine ⟨hl, ?_⟩
    dsimp only
    rw [hl]
    simp only [slice_succ, slice_zero, Nat.add_assoc, Nat.reduceAdd, h.2, Nat.reduceSub]
    rw [if_neg (by omega), if_neg (by omega), contVal_cons _ _ _ (by omega),
      contVal_cons _ _ _ (by omega), contVal_cons _ _ _ (by omega), contVal_cons _ _ _ (by omega)]
    simp only [contVal, Option.getD_some]
    omega
  · have hl : utf8Len (f k) = 6 := by unfold utf8Len; split_ifs <;> omega
    refine ⟨hl, ?_⟩
    dsimp only
    rw [hl]
    simp only [slice_succ, slice_zero, Nat.add_assoc, Nat.reduceAdd, h.2, Nat.reduceSub]
    rw [if_neg (by omega), if_neg (by omega), contVal_cons _ _ _ (by omega),
      contVal_cons _ _ _ (by omega), contVal_cons _ _ _ (by omega), contVal_cons _ _ _ (by omega),
      contVal_cons _ _ _ (by omega)]
    simp only [contVal, Option.getD_some]
    omega

/-! ## 16 and 32 bit encodings -/

theorem unit2_eq (be : Bool) (u : Nat) (hu : u < 65536) : Enc.unit2 be u = bytes16 be u := by
  unfold Enc.unit2 bytes16
  rw [shr, show u / 2 ^ 8 % 256 = u / 256 by omega]

theorem bytes16_length (be : Bool) (u : Nat) : (bytes16 be u).length = 2 := by
  cases be <;> rfl

theorem bytes16_dec (be : Bool) (u : Nat) (f : Nat → Byte) (k : Nat) (bs : List Byte)
    (h : At f k (bytes16 be u ++ bs)) : unit16 be f k = u ∧ At f (k + 2) bs := by
  cases be <;> simp only [bytes16, unit16, Bool.false_eq_true, if_false, if_true, At,
    List.cons_append, List.nil_append] at * <;> obtain ⟨h0, h1, h2⟩ := h <;>
    exact ⟨by omega, h2⟩

theorem utf16Print_eq (be : Bool) (c : Nat) (hc : Direct (.utf16 be) c) :
    Enc.utf16Print be c = if c ≤ 0xFFFF then bytes16 be c
      else bytes16 be (0xD800 + (c - 0x10000) / 0x400) ++ bytes16 be (0xDC00 + c % 0x400) := by
  obtain ⟨h1, h2⟩ := hc
  unfold Enc.utf16Print
  by_cases h : c ≤ 0xFFFF
  · rw [if_pos h, if_pos h]
    generalize hx : (c + 2 ^ 32 - 0xD800) % 2 ^ 32 = x
    rw [if_neg (by omega), unit2_eq _ _ (by omega)]
  · rw [if_neg h, if_neg h, if_pos h1]
    simp only
    rw [show ((c - 0x10000) / 0x400 + 0xD800) % 2 ^ 16 = 0xD800 + (c - 0x10000) / 0x400 by omega,
      show ((c - 0x10000) % 0x400 + 0xDC00) % 2 ^ 16 = 0xDC00 + c % 0x400 by omega,
      unit2_eq _ _ (by omega), unit2_eq _ _ (by omega)]

theorem utf16_dec (be : Bool) (c : Nat) (hc : Direct (.utf16 be) c) (f : Nat → Byte) (k : Nat)
    (h : At f k (Enc.utf16Print be c)) :
    ulen (.utf16 be) f k = (Enc.utf16Print be c).length ∧ uval (.utf16 be) f k = c := by
  rw [utf16Print_eq be c hc] at h ⊢
  obtain ⟨h1, h2⟩ := hc
  by_cases hl : c ≤ 0xFFFF
  · rw [if_pos hl] at h ⊢
    rw [← List.append_nil (bytes16 be c)] at h
    have := (bytes16_dec be c f k [] h).1
    simp only [ulen, uval, this, bytes16_length]
    rw [if_neg h2, if_neg h2]
    exact ⟨rfl, rfl⟩
  · rw [if_neg hl] at h ⊢
    obtain ⟨hu, h'⟩ := bytes16_dec be _ f k _ h
    rw [← List.append_nil (bytes16 be _)] at h'
    have hv := (bytes16_dec be _ f _ [] h').1
    simp only [ulen, uval, hu, hv, bytes16_length, List.length_append]
    rw [if_pos (by omega), if_pos (by omega), if_neg (by omega)]
    omega

theorem ucs2Print_eq (be : Bool) (c : Nat) (hc : c ≤ 0xFFFF) :
    Enc.ucs2Print be c = bytes16 be c := by
  unfold Enc.ucs2Print
  rw [if_neg (by omega), unit2_eq _ _ (by omega)]

theorem ucs2_dec (be : Bool) (c : Nat) (hc : c ≤ 0xFFFF) (f : Nat → Byte) (k : Nat)
    (h : At f k (Enc.ucs2Print be c)) :
    ulen (.ucs2 be) f k = (Enc.ucs2Print be c).length ∧ uval (.ucs2 be) f k = c := by
  rw [ucs2Print_eq be c hc] at h ⊢
  rw [← List.append_nil (bytes16 be c)] at h
  have := (bytes16_dec be c f k [] h).1
  simp only [ulen, uval, this, bytes16_length, and_self]

theorem ucs4_dec (be : Bool) (c : Nat) (hc : c < 2 ^ 32) (f : Nat → Byte) (k : Nat)
    (h : At f k (Enc.ucs4Print be c)) :
    ulen (.ucs4 be) f k = (Enc.ucs4Print be c).length ∧ uval (.ucs4 be) f k = c := by
  unfold Enc.ucs4Print at *
  cases be <;> simp only [ulen, uval, Bool.false_eq_true, if_false, if_true, At, shr, Nat.add_assoc,
    Nat.reduceAdd, and_true] at * <;> obtain ⟨h0, h1, h2, h3⟩ := h <;>
    refine ⟨rfl, ?_⟩ <;> omega

end TW
