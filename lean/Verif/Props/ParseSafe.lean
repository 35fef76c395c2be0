import Verif.Proofs.ParseSafe
import Verif.Props.PathSafe

/-!
# C88: Building an automaton reads only what is given

The names and the texts given for building an automaton are read up to their terminating null and not beyond. The code does it not for names that
end inside of a character, and not for the names in texts if the character set of the automaton has no characters of a single byte.
-/

namespace TW

open Spec Spec.Path TW.Path

variable {se e : Enc}

/-- **C88 (names)** — A name of whole characters is read up to the null byte behind it, and never beyond. How much fuel there is does not matter, if it is enough. -/
theorem C88_name_partial (he : ByteSet e) {name : List Byte} (hw : Whole e name) (hb : ∀ b ∈ name, b < 256) :
    ∃ key, ∀ n, name.length < n → nameKey e n name = .ok key :=
  nameKey_whole he ⟨hw, hb⟩

/-- **C88 (not for all names)** — A name that ends inside of a character is read beyond the null byte behind it: the bytes announced by the
last first byte are taken whatever they are. -/
theorem C88_name_false : ¬ ∀ (e : Enc), ByteSet e → ∀ (name : List Byte), (∀ b ∈ name, b < 256) → ∃ key, ∀ n, name.length < n → nameKey e n name = .ok key := by
  intro h
  obtain ⟨key, hk⟩ := h .utf8 (.inl rfl) [0xC3] (by decide)
  have h1 : nameKey .utf8 2 [0xC3] = .stop .ub := by decide +kernel
  rw [hk 2 (by decide)] at h1
  cases h1

/-- **C88 (calls)** — The functions of path elements return, whatever has been built before, if the names given are of whole characters. -/
theorem C88_call_partial (he : ByteSet e) {x : Atm × List PElem} (h : Built se e x) {p : PElem} (hp : p ∈ x.2) {c : PElem.Call}
    (hw : ∀ nm ∈ c.names, Whole e nm ∧ ∀ b ∈ nm, b < 256) : ∃ N q a', ∀ n, N ≤ n → PElem.call e n p c x.1 = (.ok q, a') := by
  obtain ⟨g, hv⟩ := built_good h
  obtain ⟨N, hN⟩ := names_settle he (l := c.names) hw
  obtain ⟨q, a', h1, -⟩ := call_good g (hv p hp) (callNamed_of (n := N) fun y hy => (hN N (Nat.le_refl _) y hy).2)
  refine ⟨N, q, a', fun n hn => ?_⟩
  rw [call_same (m := N) (fun y hy => (hN n hn y hy).1) p, h1]

/-- **C88 (texts)** — Adding the expression of a text, which may be anything in whatever character set, reads nothing but the text and the names put together from it, and comes to an end,
whatever has been built before, if the character set of the automaton is one of single bytes. -/
theorem C88_text_partial (he : ByteSet e) {x : Atm × List PElem} (h : Built se e x) (type : Int) (src : List Byte) (hb : ∀ b ∈ src, b < 256) (hl : src.length + 16 < 2 ^ 32) :
    ∃ N r a', ∀ n, N ≤ n → addExpression se e n type src x.1 = (.ok r, a') := by
  obtain ⟨N, r, a', -, h1⟩ := text_settle (se := se) he src hb hl type (built_good h).1
  exact ⟨N, r, a', h1⟩

/-- **C88 (not for all character sets)** — In an automaton of a character set with characters of two or four bytes, the name of an expression is read beyond the memory of it:
only one null byte is behind it. -/
theorem C88_text_false : ∀ e ∈ [Enc.utf16 true, .utf16 false, .ucs2 true, .ucs2 false, .ucs4 true, .ucs4 false],
    ∀ n, 4 ≤ n → (addExpression .utf8 e n 1 [47, 97] []).1 = .stop .ub := by
  intro e he n hn
  obtain ⟨m, rfl⟩ : ∃ m, n = m + 4 := ⟨n - 4, by omega⟩
  simp only [List.mem_cons, List.not_mem_nil, or_false] at he
  rcases he with rfl | rfl | rfl | rfl | rfl | rfl <;> cbv

/-! ## Examples -/

/-- `aäb` is of whole characters, and so is every name in a character set of single bytes. -/
example : Whole .utf8 [97, 0xC3, 0xA4, 98] ∧ nameKey .utf8 5 [97, 0xC3, 0xA4, 98] = .ok [97, 0xC3, 0xA4, 98] ∧ Whole (.isolatin 1) [0xE4, 0xFF] :=
  ⟨.cons 97 [] _ rfl (.cons 0xC3 [0xA4] _ rfl (.cons 98 [] _ rfl .nil)), by decide +kernel, whole_latin _⟩

/-- A text in UTF-16 with half of a character at its end, for an automaton with something in it: it is refused, behind the name. -/
example : ByteSet .utf8 ∧ Built .utf8 .utf8 ((PElem.call .utf8 9 {} (.tag (some [97])) []).2, [{ stateidx := 2 }, {}]) ∧
    (addExpression (.utf16 true) .utf8 30 7 [0, 47, 0, 97, 0xD8] (PElem.call .utf8 9 {} (.tag (some [97])) []).2).1 = .ok 5 :=
  ⟨.inl rfl, .step (.step .empty (.root [] [])) (.call [] [{}] {} (.tag (some [97])) 9 _ _ (by simp) (by decide +kernel)), by decide +kernel⟩

end TW
