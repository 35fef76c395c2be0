import Verif.Proofs.Encode
import Verif.Spec.Utf8

/-!
# Shortest form of UTF-8
-/

namespace TW

open Spec

theorem rfc2279_isUtf8 (c : Nat) (h : c ≤ 0x7FFFFFFF) : IsUtf8 (rfc2279 c) c := by
  unfold rfc2279
  split_ifs <;> simp only [IsUtf8, IsCont, and_true] <;> omega

theorem rfc2279_shortest (c : Nat) (bs : List Byte) (h : IsUtf8 bs c) :
    (rfc2279 c).length ≤ bs.length ∧ (bs.length = (rfc2279 c).length → bs = rfc2279 c) := by
  match bs, h with
  | [b], h =>
    simp only [IsUtf8] at h
    have : rfc2279 c = [c] := by unfold rfc2279; rw [if_pos (by omega)]
    rw [this]; simp; omega
  | [a, b], h =>
    simp only [IsUtf8, IsCont] at h
    unfold rfc2279
    split_ifs <;> simp <;> omega
  | [a, b, d], h =>
    simp only [IsUtf8, IsCont] at h
    unfold rfc2279
    split_ifs <;> simp <;> omega
  | [a, b, d, g], h =>
    simp only [IsUtf8, IsCont] at h
    unfold rfc2279
    split_ifs <;> simp <;> omega
  | [a, b, d, g, i], h =>
    simp only [IsUtf8, IsCont] at h
    unfold rfc2279
    split_ifs <;> simp <;> omega
  | [a, b, d, g, i, j], h =>
    simp only [IsUtf8, IsCont] at h
    unfold rfc2279
    split_ifs <;> simp <;> omega
  | [], h => exact h.elim
  | _ :: _ :: _ :: _ :: _ :: _ :: _ :: _, h => exact h.elim

end TW
