import Verif.Proofs.Printer
import Verif.Props.HdrParser

/-!
# Characters printed directly or as references
-/

namespace TW

open Spec

/-- The pages of ISO-Latin that exist. -/
def PageOk (e : Enc) : Prop := ∀ p, e = .isolatin p → 1 ≤ p ∧ p ≤ 9

theorem PageOk.mem {e : Enc} (h : PageOk e) : ∀ p, e = .isolatin p → p ∈ [1, 2, 3, 4, 5, 6, 7, 8, 9] := by
  intro p hp
  have := h p hp
  simp only [List.mem_cons, List.not_mem_nil, or_false]
  omega

theorem ascii_direct {e : Enc} (he : PageOk e) {a : UChar} (h1 : 1 ≤ a) (h2 : a < 128) : Direct e a := by
  cases e with
  | utf8 => simp only [Direct]; omega
  | utf16 be => simp only [Direct]; omega
  | ucs2 be => simp only [Direct]; omega
  | ucs4 be => simp only [Direct]; omega
  | isolatin p =>
    have := (C21_carriers (.isolatin p) a h1 h2 he.mem).1
    simp only [Direct]
    simp only [Enc.print] at this
    rw [this]
    rfl

theorem unit2_ascii {be : Bool} {a : UChar} (h : a < 128) :
    Enc.print (.utf16 be) a = Enc.unit2 be a ∧ Enc.print (.ucs2 be) a = Enc.unit2 be a := by
  constructor
  · simp only [Enc.print, Enc.utf16Print]
    rw [if_pos (by omega), if_neg (by omega)]
  · simp only [Enc.print, Enc.ucs2Print]
    rw [if_neg (by omega)]

theorem IsHex.chars {ds : List Byte} {n : Nat} (h : IsHex ds n) :
    ∀ c ∈ ds, 48 ≤ c ∧ c ≤ 57 ∨ 97 ≤ c ∧ c ≤ 122 ∨ c = 35 := by
  have hd : ∀ d, d < 16 → 48 ≤ Spec.hexDigit d ∧ Spec.hexDigit d ≤ 57 ∨ 97 ≤ Spec.hexDigit d ∧ Spec.hexDigit d ≤ 122 ∨ Spec.hexDigit d = 35 := by
    intro d hd
    unfold Spec.hexDigit
    split <;> omega
  induction h with
  | digit d _ h => intro c hc; rw [List.mem_singleton] at hc; rw [hc]; exact hd d h
  | snoc bs n d _ h ih =>
    intro c hc
    rcases List.mem_append.1 hc with hc | hc
    · exact ih c hc
    · rw [List.mem_singleton] at hc; rw [hc]; exact hd d h

/-- The characters of a hexadecimal reference. -/
theorem entity_chars {c : UChar} (h0 : c ≠ 0) (h32 : c < 2 ^ 32) :
    ∃ r, r ≠ [] ∧ (∀ a ∈ r, 48 ≤ a ∧ a ≤ 57 ∨ 97 ≤ a ∧ a ≤ 122 ∨ a = 35) ∧ entityText c = 38 :: r ++ [59] := by
  obtain ⟨ds, hx, he2⟩ := entityText_isEntity c (by omega) h32
  have hr : ∀ a ∈ 35 :: 120 :: ds, 48 ≤ a ∧ a ≤ 57 ∨ 97 ≤ a ∧ a ≤ 122 ∨ a = 35 := by
    intro a ha
    rcases List.mem_cons.1 ha with rfl | ha
    · omega
    rcases List.mem_cons.1 ha with rfl | ha
    · omega
    exact IsHex.chars hx a ha
  exact ⟨35 :: 120 :: ds, by simp, hr, by rw [he2]; simp⟩

/-- A character that the encoding lacks is printed as a hexadecimal reference. -/
theorem print_entity {e : Enc} (he : PageOk e) {c : UChar} (h0 : c ≠ 0) (h32 : c < 2 ^ 32) (hu : e ≠ .utf8)
    (hd : ¬ Direct e c) : e.print c = (entityText c).flatMap e.print := by
  obtain ⟨r, -, hr, hall⟩ := entity_chars h0 h32
  have hasc : ∀ a ∈ entityText c, 1 ≤ a ∧ a < 128 := by
    rw [hall]
    intro a ha
    rcases List.mem_append.1 ha with ha | ha
    · rcases List.mem_cons.1 ha with rfl | ha
      · omega
      · have := hr a ha; omega
    · simp at ha; omega
  cases e with
  | utf8 => exact absurd rfl hu
  | utf16 be =>
    rw [Printer.flatMap_congr' (g := Enc.unit2 be) fun a ha => (unit2_ascii (hasc a ha).2).1, ← encodeStr_eq c h32]
    simp only [Enc.print, Enc.utf16Print]
    simp only [Direct] at hd
    split
    · rw [if_pos (by omega)]
    · rw [if_neg (by omega)]
  | ucs2 be =>
    rw [Printer.flatMap_congr' (g := Enc.unit2 be) fun a ha => (unit2_ascii (hasc a ha).2).2, ← encodeStr_eq c h32]
    simp only [Enc.print, Enc.ucs2Print]
    simp only [Direct] at hd
    rw [if_pos (by omega)]
  | ucs4 be => exact absurd h32 hd
  | isolatin p =>
    rw [Printer.flatMap_congr' (g := fun a => [a]) fun a ha =>
      (C21_carriers (.isolatin p) a (hasc a ha).1 (hasc a ha).2 he.mem).1.trans rfl, ← encodeStr_eq c h32]
    simp only [Direct, Enc.isolatinPrint] at hd
    simp only [Enc.print, Enc.isolatinPrint]
    by_cases hi : invcode p c = 0
    · rw [if_pos hi]; simp
    · rw [if_neg hi] at hd; exact absurd rfl hd

/-- A character that the encoding lacks is printed as a reference. -/
theorem print_reference {e : Enc} (he : PageOk e) {c : UChar} (h0 : c ≠ 0) (h32 : c < 2 ^ 32) (hu : e ≠ .utf8)
    (hd : ¬ Direct e c) :
    ∃ r, r ≠ [] ∧ (∀ a ∈ r, 48 ≤ a ∧ a ≤ 57 ∨ 97 ≤ a ∧ a ≤ 122 ∨ a = 35) ∧
      e.print c = (38 :: r ++ [59]).flatMap e.print := by
  obtain ⟨r, h1, h2, h3⟩ := entity_chars h0 h32
  exact ⟨r, h1, h2, by rw [← h3]; exact print_entity he h0 h32 hu hd⟩

theorem contVal_lt (bs : List Byte) : ∀ {v w : Nat}, v < 2 ^ 32 → contVal bs v = some w → w < 2 ^ 32 := by
  induction bs with
  | nil => intro v w hv h; cases h; exact hv
  | cons b bs ih =>
    intro v w hv h
    unfold contVal at h
    split at h
    · exact ih (Nat.mod_lt _ (by omega)) h
    · cases h

theorem uval_lt (e : Enc) {f : Nat → Byte} (hf : ∀ i, f i < 256) (k : Nat) : uval e f k < 2 ^ 32 := by
  have h0 := hf k
  have h1 := hf (k + 1)
  have h2 := hf (k + 2)
  have h3 := hf (k + 3)
  cases e with
  | utf8 =>
    simp only [uval, utf8Val]
    split
    · omega
    split
    · omega
    cases hc : contVal (slice f (k + 1) (utf8Len (f k) - 1)) (f k % 2 ^ (7 - utf8Len (f k))) with
    | none => simp
    | some w =>
      have := contVal_lt _ (Nat.lt_of_le_of_lt (Nat.mod_le _ _) (by omega)) hc
      simpa using this
  | utf16 be => cases be <;> simp only [uval, unit16, Bool.false_eq_true, if_false, if_true, Nat.add_assoc] <;>
      (split <;> try split) <;> omega
  | ucs2 be => cases be <;> simp only [uval, unit16, Bool.false_eq_true, if_false, if_true] <;> omega
  | ucs4 be => cases be <;> simp only [uval, Bool.false_eq_true, if_false, if_true] <;> omega
  | isolatin p =>
    simp only [uval]
    split
    · omega
    · have h : ∀ p, ∀ x ∈ codePage p, x < 2 ^ 16 := by
        intro p
        unfold codePage
        split <;> decide +kernel
      rw [List.getD_eq_getElem?_getD]
      cases hx : (codePage (p - 1))[f k - 128]? with
      | none => simp
      | some x =>
        have := h _ x (List.mem_of_getElem? hx)
        simp only [Option.getD_some]
        omega

theorem decode_lt (e : Enc) {bs : List Byte} (hb : ∀ b ∈ bs, b < 256) : ∀ c ∈ decode e bs, c < 2 ^ 32 := by
  intro c hc
  unfold decode at hc
  obtain ⟨n, -, rfl⟩ := List.mem_map.1 ((List.takeWhile_sublist _).mem hc)
  exact uval_lt e (strm_lt bs hb) _

theorem decFrom_print {e : Enc} (he : PageOk e) (f : Nat → Byte) (cs : List UChar) : ∀ (n k : Nat),
    (∀ c ∈ cs, c ≠ 0 ∧ c < 2 ^ 32 ∧ Direct e c) → At f k (cs.flatMap e.print) →
    (∀ j, k + (cs.flatMap e.print).length ≤ j → j < k + (cs.flatMap e.print).length + 4 → f j = 0) →
    cs.length < n → decFrom e f n k = cs := by
  induction cs with
  | nil =>
    intro n k _ _ h0 hn
    obtain ⟨n, rfl⟩ : ∃ m, n = m + 1 := ⟨n - 1, by simp at hn; omega⟩
    unfold decFrom
    rw [if_pos (uval_zero e f k (by simpa using h0)).1]
  | cons c cs ih =>
    intro n k hd ha h0 hn
    obtain ⟨n, rfl⟩ : ∃ m, n = m + 1 := ⟨n - 1, by simp at hn; omega⟩
    rw [List.flatMap_cons] at ha h0
    rw [At_append] at ha
    obtain ⟨hc0, hc1, hc2⟩ := hd c (by simp)
    obtain ⟨hl, hv⟩ := direct_dec e he c hc1 hc2 f k ha.1
    have := ih n (k + (e.print c).length) (fun x hx => hd x (by simp [hx])) ha.2 (by
      intro j h1 h2
      rw [List.length_append] at h0
      exact h0 j (by omega) (by omega)) (by simp at hn; omega)
    unfold decFrom
    rw [hv, hl, if_neg hc0, this]

theorem At_strm (bs : List Byte) : At (strm bs) 0 bs := by
  refine At_of fun i hi => ?_
  rw [Nat.zero_add]
  exact (List.getElem?_eq_some_iff.1 (strm_get bs i hi)).2.symm

theorem print_ne {e : Enc} (he : PageOk e) {c : UChar} (h32 : c < 2 ^ 32) (hd : Direct e c) : 1 ≤ (e.print c).length := by
  have h : ∀ bs : List Byte, At (strm bs) 0 bs := At_strm
  have := (direct_dec e he c h32 hd _ 0 (h (e.print c))).1
  rw [← this]
  exact ulen_pos _ _ _

/-- The characters printed are those read. -/
theorem decode_print {e : Enc} (he : PageOk e) {cs : List UChar} (hc : ∀ c ∈ cs, c ≠ 0 ∧ c < 2 ^ 32 ∧ Direct e c) :
    decode e (cs.flatMap e.print) = cs := by
  rw [decode_eq]
  refine decFrom_print he _ cs _ 0 hc (At_strm _) (fun j h1 _ => strm_end _ j (by omega)) ?_
  have : ∀ cs : List UChar, (∀ c ∈ cs, c ≠ 0 ∧ c < 2 ^ 32 ∧ Direct e c) → cs.length ≤ (cs.flatMap e.print).length := by
    intro cs
    induction cs with
    | nil => intro _; simp
    | cons c cs ih =>
      intro h
      have h1 := print_ne he (h c (by simp)).2.1 (h c (by simp)).2.2
      have h2 := ih fun x hx => h x (by simp [hx])
      simp only [List.length_cons, List.flatMap_cons, List.length_append]
      omega
  have := this cs hc
  omega

theorem SafeText.append {bad a b : List UChar} (ha : SafeText bad a) (hb : SafeText bad b) : SafeText bad (a ++ b) := by
  induction ha with
  | nil => exact hb
  | char c cs h1 h2 _ ih => exact .char c _ h1 h2 ih
  | ref r cs h1 h2 _ ih =>
    have := SafeText.ref r _ h1 h2 ih
    simpa using this

/-- Characters that can be read back. -/
def Readable (e : Enc) (cs : List UChar) : Prop := ∀ c ∈ cs, c ≠ 0 ∧ c < 2 ^ 32 ∧ Direct e c

theorem readable_ascii {e : Enc} (he : PageOk e) {cs : List UChar} (h : ∀ c ∈ cs, 1 ≤ c ∧ c < 128) : Readable e cs :=
  fun c hc => ⟨by have := h c hc; omega, by have := h c hc; omega, ascii_direct he (h c hc).1 (h c hc).2⟩

theorem print_safe {e : Enc} (he : PageOk e) {c : UChar} (h0 : c ≠ 0) (h32 : c < 2 ^ 32)
    (hu : e = .utf8 → c ≤ 0x7FFFFFFF) {bad : List UChar} (hb : c ∉ bad) (hm : c ∉ [38, 60, 62]) :
    ∃ cs, e.print c = cs.flatMap e.print ∧ Readable e cs ∧ SafeText bad cs := by
  by_cases hd : Direct e c
  · refine ⟨[c], by simp, ?_, .char c [] hm hb .nil⟩
    intro x hx
    rw [List.mem_singleton] at hx
    subst hx
    exact ⟨h0, h32, hd⟩
  · have hne : e ≠ .utf8 := by
      rintro rfl
      exact hd (hu rfl)
    obtain ⟨r, h1, h2, h3⟩ := print_reference he h0 h32 hne hd
    refine ⟨38 :: r ++ [59], h3, ?_, .ref r [] h1 h2 .nil⟩
    refine readable_ascii he fun a ha => ?_
    rcases List.mem_append.1 ha with ha | ha
    · rcases List.mem_cons.1 ha with rfl | ha
      · omega
      · have := h2 a ha; omega
    · simp at ha; omega

/-- How a character is escaped: by a reference, or not at all. -/
theorem escContent_safe {c : UChar} : (∃ r, r ≠ [] ∧ (∀ a ∈ r, 48 ≤ a ∧ a ≤ 57 ∨ 97 ≤ a ∧ a ≤ 122 ∨ a = 35) ∧
    escContent c = 38 :: r ++ [59]) ∨ (c ∉ [38, 60, 62] ∧ c ≠ 8 ∧ escContent c = [c]) := by
  unfold escContent
  split
  · exact .inl ⟨[108, 116], by decide, by decide, rfl⟩
  split
  · exact .inl ⟨[103, 116], by decide, by decide, rfl⟩
  split
  · exact .inl ⟨[97, 109, 112], by decide, by decide, rfl⟩
  split
  · exact .inl ⟨[35, 56], by decide, by decide, rfl⟩
  · exact .inr ⟨by simp; omega, by omega, rfl⟩

theorem escAttr_safe {c : UChar} : (∃ r, r ≠ [] ∧ (∀ a ∈ r, 48 ≤ a ∧ a ≤ 57 ∨ 97 ≤ a ∧ a ≤ 122 ∨ a = 35) ∧
    escAttr c = 38 :: r ++ [59]) ∨ (c ∉ [38, 60, 62] ∧ c ∉ [39, 34, 9, 10, 13] ∧ escAttr c = [c]) := by
  unfold escAttr
  split
  · exact .inl ⟨[97, 112, 111, 115], by decide, by decide, rfl⟩
  split
  · exact .inl ⟨[113, 117, 111, 116], by decide, by decide, rfl⟩
  split
  · exact .inl ⟨[35, 57], by decide, by decide, rfl⟩
  split
  · exact .inl ⟨[35, 49, 48], by decide, by decide, rfl⟩
  split
  · exact .inl ⟨[35, 49, 51], by decide, by decide, rfl⟩
  · rcases escContent_safe (c := c) with h | ⟨h1, -, h2⟩
    · exact .inl h
    · exact .inr ⟨h1, by simp; omega, h2⟩

theorem esc_safe {e : Enc} (he : PageOk e) {bad : List UChar} {esc : UChar → List UChar}
    (hesc : ∀ c, (∃ r, r ≠ [] ∧ (∀ a ∈ r, 48 ≤ a ∧ a ≤ 57 ∨ 97 ≤ a ∧ a ≤ 122 ∨ a = 35) ∧
      esc c = 38 :: r ++ [59]) ∨ (c ∉ [38, 60, 62] ∧ c ∉ bad ∧ esc c = [c])) (l : List UChar) :
    (∀ c ∈ l, c ≠ 0 ∧ c < 2 ^ 32 ∧ (e = .utf8 → c ≤ 0x7FFFFFFF)) →
    ∃ cs, (l.flatMap esc).flatMap e.print = cs.flatMap e.print ∧ Readable e cs ∧ SafeText bad cs := by
  induction l with
  | nil => intro _; exact ⟨[], rfl, nofun, .nil⟩
  | cons c l ih =>
    intro h
    obtain ⟨cs, h1, h2, h3⟩ := ih fun x hx => h x (by simp [hx])
    obtain ⟨g0, g1, g2⟩ := h c (by simp)
    have key : ∃ cs, (esc c).flatMap e.print = cs.flatMap e.print ∧ Readable e cs ∧ SafeText bad cs := by
      rcases hesc c with ⟨r, k1, k2, k3⟩ | ⟨k1, k2, k3⟩
      · rw [k3]
        refine ⟨_, rfl, readable_ascii he fun a ha => ?_, .ref r [] k1 k2 .nil⟩
        rcases List.mem_append.1 ha with ha | ha
        · rcases List.mem_cons.1 ha with rfl | ha
          · omega
          · have := k2 a ha; omega
        · simp at ha; omega
      · rw [k3]
        simpa using print_safe he g0 g1 g2 k2 k1
    obtain ⟨cs', k1, k2, k3⟩ := key
    refine ⟨cs' ++ cs, ?_, ?_, SafeText.append k3 h3⟩
    · rw [List.flatMap_cons, List.flatMap_append, List.flatMap_append, k1, h1]
    · intro x hx
      rcases List.mem_append.1 hx with hx | hx
      · exact k2 x hx
      · exact h2 x hx

end TW
