import Verif.Spec.KeyName
import Verif.Proofs.PathNames

/-!
# The keys of names
-/

namespace TW

open Spec

variable {ι : Type} [Iter ι] {f : Nat → Byte} {S : Source ι f} {e : Enc}

theorem inName_iff {c : UChar} (h0 : c ≠ 0) : isTagC (controlCharMap (if c < 128 then c else 255)) = true ↔ InName c := by
  by_cases hc : c < 128
  · rw [if_pos hc]
    have : ∀ k : Fin 128, k.1 ≠ 0 → (isTagC (controlCharMap k.1) = true ↔ InName k.1) := by unfold InName; decide +kernel
    exact this ⟨c, hc⟩ h0
  · rw [if_neg hc]
    refine ⟨fun _ => ⟨.inl (by omega), fun hm => ?_⟩, fun _ => by decide⟩
    have : ∀ x ∈ ascii "!\"&'/<=>?[]", x < 128 := by decide
    exact hc (this c hm)

theorem amp_iff (c : UChar) : controlCharMap (if c < 128 then c else 255) = .Amp ↔ c = 38 := by
  by_cases hc : c < 128
  · rw [if_pos hc]
    have : ∀ k : Fin 128, controlCharMap k.1 = .Amp ↔ k.1 = 38 := by decide +kernel
    exact this ⟨c, hc⟩
  · rw [if_neg hc]
    exact ⟨fun h => absurd h (by decide), fun h => by omega⟩

namespace Path

/-- A name is read up to the first character that is none of a name. -/
theorem staticToken_text (out : Enc) (he : PageOk e) (cs : List UChar) : ∀ (n k : Nat) (ld : Ld) (t : TextScanner ι),
    TRel S e t ⟨k, ld⟩ → (∀ c ∈ cs, c < 2 ^ 32 ∧ Direct e c ∧ c ≠ 0) → Spec.At f k (cs.flatMap e.print) →
    Avail S k ((cs.flatMap e.print).length + ulen e f (k + (cs.flatMap e.print).length)) →
    uasc e f (k + (cs.flatMap e.print).length) = 0 → cs.length < n →
    ∃ t', staticToken out isTagC n t = (.ok ((taken cs).flatMap fun c => out.print (unamp c)), t') := by
  induction cs with
  | nil =>
    intro n k ld t h _ _ hv hend hn
    obtain ⟨n, rfl⟩ : ∃ m, n = m + 1 := ⟨n - 1, by simp at hn; omega⟩
    simp only [List.flatMap_nil, List.length_nil, Nat.add_zero, Nat.zero_add] at hv hend ⊢
    obtain ⟨t', h1, h2⟩ := h.control_ok hv
    refine ⟨t', ?_⟩
    unfold staticToken
    rw [M.bind_ok h1, hend, if_neg (by decide), if_neg (by decide)]
    rfl
  | cons c cs ih =>
    intro n k ld t h hc hat hv hend hn
    obtain ⟨n, rfl⟩ : ∃ m, n = m + 1 := ⟨n - 1, by simp at hn; omega⟩
    rw [List.flatMap_cons, List.length_append] at hv hend
    rw [List.flatMap_cons, At_append] at hat
    obtain ⟨c1, c2, c3⟩ := hc c (List.mem_cons_self ..)
    obtain ⟨d1, d2⟩ := direct_dec e he c c1 c2 f k hat.1
    have d3 := direct_asc e he c c1 c3 c2 f k hat.1
    have hv1 : Avail S k (ulen e f k) := fun j h1 h2 => hv j h1 (by omega)
    obtain ⟨t1, h1, h2⟩ := h.control_ok hv1
    have next : ∀ {ld' : Ld} {t2 : TextScanner ι}, TRel S e t2 ⟨k, ld'⟩ → ∃ t3 t4, TextScanner.skip t2 = (.ok (), t3) ∧
        staticToken out isTagC n t3 = (.ok ((taken cs).flatMap fun c => out.print (unamp c)), t4) := by
      intro ld' t2 h4
      obtain ⟨t3, h5, h6⟩ := h4.skip_ok hv1
      rw [d1] at h6
      obtain ⟨t4, h7⟩ := ih n _ _ t3 h6 (fun c hc' => hc c (List.mem_cons_of_mem _ hc')) hat.2 (by
        intro j j1 j2
        refine hv j (by omega) ?_
        rw [show k + ((e.print c).length + (cs.flatMap e.print).length) = k + (e.print c).length + (cs.flatMap e.print).length by omega]
        omega) (by rw [Nat.add_assoc]; exact hend) (by simp at hn; omega)
      exact ⟨t3, t4, h5, h7⟩
    by_cases hin : InName c
    · obtain ⟨t2, h3, h4⟩ := h2.chr_ok hv1
      obtain ⟨t3, t4, h5, h7⟩ := next h4
      refine ⟨t4, ?_⟩
      have hna : c ≠ 38 := by rintro rfl; exact hin.2 (by decide)
      conv => lhs; unfold staticToken
      rw [M.bind_ok h1, if_pos (by rw [d3]; exact (inName_iff c3).2 hin), M.bind_ok h3, M.bind_ok h5, M.bind_ok h7, d2]
      simp [taken, hin, unamp, hna]
    · have hnt : ¬ isTagC (controlCharMap (uasc e f k)) = true := by rw [d3]; exact fun k => hin ((inName_iff c3).1 k)
      by_cases ha : c = 38
      · obtain ⟨t2, h3, h4⟩ := h2.ascii_ok hv1
        obtain ⟨t3, t4, h5, h7⟩ := next h4
        refine ⟨t4, ?_⟩
        have h8 : numericEntity (n + 1) t1 = (.ok 0, t2) := by
          unfold numericEntity
          rw [M.bind_ok h3, d3, ha]
          rfl
        conv => lhs; unfold staticToken
        rw [M.bind_ok h1, if_neg hnt, if_pos (by rw [d3]; exact (amp_iff c).2 ha), M.bind_ok h8, M.bind_ok h5, M.bind_ok h7]
        simp [taken, ha, unamp]
      · refine ⟨t1, ?_⟩
        conv => lhs; unfold staticToken
        rw [M.bind_ok h1, if_neg hnt, if_neg (by rw [d3]; exact fun k => ha ((amp_iff c).1 k))]
        simp [taken, hin, ha]

/-- The key of a name. -/
theorem nameKey_text (he : PageOk e) (h1 : e = .utf8 ∨ ∃ p, e = .isolatin p) {cs : List UChar} {n : Nat}
    (hc : ∀ c ∈ cs, c < 2 ^ 32 ∧ Direct e c ∧ c ≠ 0) (hn : cs.length < n) :
    nameKey e n (cs.flatMap e.print) = .ok (((taken cs).flatMap fun c => e.print (unamp c)).take 1024) := by
  generalize hb : cs.flatMap e.print = bs at *
  have hlt : ∀ b ∈ bs ++ [0], b < 256 := by
    intro b hb'
    rcases List.mem_append.1 hb' with hb' | hb'
    · rw [← hb, List.mem_flatMap] at hb'
      obtain ⟨c, c1, c2⟩ := hb'
      exact print_lt e he c (hc c c1).1 (hc c c1).2.1 b c2
    · simp at hb'; omega
  obtain ⟨k1, k2⟩ := ptrSource_start (bs ++ [0]) hlt
  have hR := TRel.init (ptrSource (bs ++ [0]) hlt) e _ k2 k1
  have hz : strm (bs ++ [0]) bs.length = 0 := by
    unfold strm
    rw [List.getD_eq_getElem?_getD]
    simp
  have hu : ulen e (strm (bs ++ [0])) (0 + bs.length) = 1 ∧ uasc e (strm (bs ++ [0])) (0 + bs.length) = 0 := by
    rw [Nat.zero_add]
    rcases h1 with rfl | ⟨p, rfl⟩
    · constructor
      · show ulen _ _ _ = 1
        simp only [ulen, hz]
        try rfl
      · simp only [uasc, hz]
        rfl
    · constructor
      · show ulen _ _ _ = 1
        simp only [ulen]
        try rfl
      · simp only [uasc, hz]
        rfl
  obtain ⟨t', h3⟩ := staticToken_text e he cs n 0 .no _ hR hc (by
      rw [hb]
      have := At_strm (bs ++ [0])
      rw [At_append] at this
      exact this.1) (by
      rw [hb, hu.1]
      intro j _ j2
      have : j < (bs ++ [0]).length := by simp; omega
      exact ⟨this, this⟩) (by rw [hb, hu.2]) hn
  unfold nameKey
  rw [h3]

end Path

end TW
