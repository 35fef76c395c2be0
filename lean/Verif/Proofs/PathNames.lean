import Verif.Proofs.PathFeed
import Verif.Proofs.Escape
import Verif.Proofs.Sources

/-!
# Reading names
-/

namespace TW

open Spec

theorem invcode_ascii : ∀ p ∈ [1, 2, 3, 4, 5, 6, 7, 8, 9], ∀ c ∈ List.range 128, c ≠ 0 → invcode p c = c := by
  decide +kernel

/-- The byte classified is the character if it is ASCII. -/
theorem direct_asc (e : Enc) (he : PageOk e) (c : Nat) (h32 : c < 2 ^ 32) (h0 : c ≠ 0) (hc : Direct e c)
    (f : Nat → Byte) (k : Nat) (h : At f k (e.print c)) : uasc e f k = if c < 128 then c else 255 := by
  have hv := (direct_dec e he c h32 hc f k h).2
  cases e with
  | utf8 =>
    simp only [Direct] at hc
    simp only [Enc.print, utf8Print_eq c hc] at h
    unfold uasc
    simp only []
    unfold rfc2279 at h
    split_ifs at h <;> obtain ⟨h1, -⟩ := h <;> rw [h1] <;> split_ifs <;> omega
  | utf16 be => unfold uasc; simp only []; rw [hv]
  | ucs2 be => unfold uasc; simp only []; rw [hv]
  | ucs4 be => unfold uasc; simp only []; rw [hv]
  | isolatin p =>
    have hp := he.mem p rfl
    unfold uasc
    simp only []
    by_cases hlt : c < 128
    · have hi := invcode_ascii p hp c (List.mem_range.2 hlt) h0
      simp only [Enc.print, Enc.isolatinPrint, hi, if_neg h0, At] at h
      rw [h.1]
    · rw [if_neg hlt]
      split
      · rename_i h1
        simp only [uval, h1, if_true] at hv
        omega
      · rfl

variable {ι : Type} [Iter ι] {f : Nat → Byte} {S : Source ι f} {e : Enc}

/-- The bytes of a character are there. -/
def Avail (S : Source ι f) (k n : Nat) : Prop := ∀ j, k ≤ j → j < k + n → S.av j ∧ S.ic j

theorem TRel.control_ok {t : TextScanner ι} {k : Nat} {ld : Ld} (h : TRel S e t ⟨k, ld⟩) (hv : Avail S k (ulen e f k)) :
    ∃ t', TextScanner.control t = (.ok (controlCharMap (uasc e f k)), t') ∧ TRel S e t' ⟨k, ld.up⟩ := by
  rcases h.control with ⟨v, t', a', h1, h2, h3⟩ | ⟨er, t', -, -, p, h1, h2, -⟩
  · cases h2
    exact ⟨t', h1, h3⟩
  · have := hv (k + p) (by omega) (by simpa using h1)
    rcases h2 with h2 | h2
    · exact (h2 this.1).elim
    · exact (h2 this.2).elim

theorem TRel.ascii_ok {t : TextScanner ι} {k : Nat} {ld : Ld} (h : TRel S e t ⟨k, ld⟩) (hv : Avail S k (ulen e f k)) :
    ∃ t', TextScanner.ascii t = (.ok (if uasc e f k < 128 then uasc e f k else 0), t') ∧ TRel S e t' ⟨k, ld.up⟩ := by
  rcases h.ascii with ⟨v, t', a', h1, h2, h3⟩ | ⟨er, t', -, -, p, h1, h2, -⟩
  · cases h2
    exact ⟨t', h1, h3⟩
  · have := hv (k + p) (by omega) (by simpa using h1)
    rcases h2 with h2 | h2
    · exact (h2 this.1).elim
    · exact (h2 this.2).elim

theorem TRel.chr_ok {t : TextScanner ι} {k : Nat} {ld : Ld} (h : TRel S e t ⟨k, ld⟩) (hv : Avail S k (ulen e f k)) :
    ∃ t', TextScanner.chr t = (.ok (uval e f k), t') ∧ TRel S e t' ⟨k, .full⟩ := by
  rcases h.chr with ⟨v, t', a', h1, h2, h3⟩ | ⟨er, t', -, -, p, h1, h2, -⟩
  · cases h2
    exact ⟨t', h1, h3⟩
  · have := hv (k + p) (by omega) (by simpa using h1)
    rcases h2 with h2 | h2
    · exact (h2 this.1).elim
    · exact (h2 this.2).elim

theorem TRel.skip_ok {t : TextScanner ι} {k : Nat} {ld : Ld} (h : TRel S e t ⟨k, ld⟩) (hv : Avail S k (ulen e f k)) :
    ∃ t', TextScanner.skip t = (.ok (), t') ∧ TRel S e t' ⟨k + ulen e f k, .no⟩ := by
  rcases h.skip with ⟨v, t', a', h1, h2, h3⟩ | ⟨er, t', -, -, p, h1, h2, -⟩
  · cases h2
    exact ⟨t', h1, h3⟩
  · have := hv (k + p) (by omega) (by simpa using h1)
    rcases h2 with h2 | h2
    · exact (h2 this.1).elim
    · exact (h2 this.2).elim

/-- A character of a name. -/
def NameChar (c : UChar) : Prop := c ≠ 0 ∧ isTagC (controlCharMap (if c < 128 then c else 255)) = true

namespace Path

/-- A name is read up to the first character that is none of a tag. -/
theorem staticToken_run (out : Enc) (he : PageOk e) (cs : List UChar) : ∀ (n k : Nat) (ld : Ld) (t : TextScanner ι),
    TRel S e t ⟨k, ld⟩ → (∀ c ∈ cs, c < 2 ^ 32 ∧ Direct e c ∧ NameChar c) → Spec.At f k (cs.flatMap e.print) →
    Avail S k ((cs.flatMap e.print).length + ulen e f (k + (cs.flatMap e.print).length)) →
    (isTagC (controlCharMap (uasc e f (k + (cs.flatMap e.print).length))) = false ∧
      controlCharMap (uasc e f (k + (cs.flatMap e.print).length)) ≠ .Amp) → cs.length < n →
    ∃ t', staticToken out isTagC n t = (.ok (cs.flatMap out.print), t') ∧
      TRel S e t' ⟨k + (cs.flatMap e.print).length, if cs = [] then ld.up else .asc⟩ := by
  induction cs with
  | nil =>
    intro n k ld t h _ _ hv hend hn
    obtain ⟨n, rfl⟩ : ∃ m, n = m + 1 := ⟨n - 1, by simp at hn; omega⟩
    simp only [List.flatMap_nil, List.length_nil, Nat.add_zero, Nat.zero_add] at hv hend ⊢
    obtain ⟨t', h1, h2⟩ := h.control_ok hv
    refine ⟨t', ?_, by simpa using h2⟩
    unfold staticToken
    rw [M.bind_ok h1, if_neg (by rw [hend.1]; decide), if_neg hend.2]
    rfl
  | cons c cs ih =>
    intro n k ld t h hc hat hv hend hn
    obtain ⟨n, rfl⟩ : ∃ m, n = m + 1 := ⟨n - 1, by simp at hn; omega⟩
    rw [List.flatMap_cons, List.length_append] at hv hend
    rw [List.flatMap_cons, At_append] at hat
    obtain ⟨c1, c2, c3, c4⟩ := hc c (List.mem_cons_self ..)
    obtain ⟨d1, d2⟩ := direct_dec e he c c1 c2 f k hat.1
    have d3 := direct_asc e he c c1 c3 c2 f k hat.1
    have hv1 : Avail S k (ulen e f k) := fun j h1 h2 => hv j h1 (by omega)
    obtain ⟨t1, h1, h2⟩ := h.control_ok hv1
    obtain ⟨t2, h3, h4⟩ := h2.chr_ok hv1
    obtain ⟨t3, h5, h6⟩ := h4.skip_ok hv1
    rw [d1] at h6
    rw [← Nat.add_assoc] at hend
    obtain ⟨t4, h7, h8⟩ := ih n _ _ t3 h6 (fun c hc' => hc c (List.mem_cons_of_mem _ hc')) hat.2 (by
      intro j j1 j2
      refine hv j (by omega) ?_
      rw [show k + ((e.print c).length + (cs.flatMap e.print).length) = k + (e.print c).length + (cs.flatMap e.print).length by omega]
      omega) hend (by simp at hn; omega)
    refine ⟨t4, ?_, ?_⟩
    · conv => lhs; unfold staticToken
      rw [M.bind_ok h1, if_pos (by rw [d3]; exact c4), M.bind_ok h3, M.bind_ok h5, M.bind_ok h7, d2]
      rfl
    · rw [List.flatMap_cons, List.length_append, if_neg (by simp), ← Nat.add_assoc]
      by_cases hcs : cs = []
      · rw [if_pos hcs] at h8; exact h8
      · rw [if_neg hcs] at h8; exact h8

/-- A name is its own key. -/
theorem nameKey_self (he : PageOk e) (h1 : e = .utf8 ∨ ∃ p, e = .isolatin p) {cs : List UChar} {n : Nat}
    (hc : ∀ c ∈ cs, c < 2 ^ 32 ∧ Direct e c ∧ NameChar c) (hlen : (cs.flatMap e.print).length ≤ 1024) (hn : cs.length < n) :
    nameKey e n (cs.flatMap e.print) = .ok (cs.flatMap e.print) := by
  generalize hb : cs.flatMap e.print = bs at *
  have hlt : ∀ b ∈ bs ++ [0], b < 256 := by
    intro b hb'
    rcases List.mem_append.1 hb' with hb' | hb'
    · rw [← hb, List.mem_flatMap] at hb'
      obtain ⟨c, c1, c2⟩ := hb'
      exact print_lt e he c (hc c c1).1 (hc c c1).2.1 b c2
    · simp at hb'; omega
  obtain ⟨k1, k2⟩ := ptrSource_start (bs ++ [0]) hlt
  have hR := TRel.init (ptrSource (bs ++ [0]) hlt) e _ k2 k1
  have hz : strm (bs ++ [0]) bs.length = 0 := by
    unfold strm
    rw [List.getD_eq_getElem?_getD]
    simp
  have hu : ulen e (strm (bs ++ [0])) (0 + bs.length) = 1 ∧ uasc e (strm (bs ++ [0])) (0 + bs.length) = 0 := by
    rw [Nat.zero_add]
    rcases h1 with rfl | ⟨p, rfl⟩
    · constructor
      · show ulen _ _ _ = 1
        simp only [ulen, hz]
        try rfl
      · simp only [uasc, hz]
        rfl
    · constructor
      · show ulen _ _ _ = 1
        simp only [ulen, hz]
        try rfl
      · simp only [uasc, hz]
        rfl
  obtain ⟨t', h3, -⟩ := staticToken_run e he cs n 0 .no _ hR hc (by
      rw [hb]
      have := At_strm (bs ++ [0])
      rw [At_append] at this
      exact this.1) (by
      rw [hb, hu.1]
      intro j _ j2
      have : j < (bs ++ [0]).length := by simp; omega
      exact ⟨this, this⟩) (by rw [hb, hu.2]; exact ⟨by decide, by decide⟩) hn
  unfold nameKey
  rw [h3, hb]
  simp only []
  rw [List.take_of_length_le hlen]

end Path

end TW
