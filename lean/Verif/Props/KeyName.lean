import Verif.Proofs.KeyName
import Verif.Props.Path

/-!
# Property C85: names in the building interface
-/

namespace TW

open Spec Spec.Path TW.Path

theorem byteSet_page {e : Enc} (he : ByteSet e) : PageOk e ∧ (e = .utf8 ∨ ∃ p, e = .isolatin p) := by
  refine ⟨?_, ?_⟩
  · rintro p rfl
    rcases he with h | ⟨q, h, h'⟩
    · cases h
    · cases h; exact h'
  · rcases he with h | ⟨q, h, -⟩
    · exact .inl h
    · exact .inr ⟨q, h⟩

/-- C85: what a selection by a name or by a value asks for. Of any text of characters the part up to the first character that is
none of a name is taken, each `&` in it as the character 0, and of that the first 1024 bytes. -/
theorem C85_key {e : Enc} (he : ByteSet e) {cs : List UChar} {n : Nat} (hc : ∀ c ∈ cs, c < 2 ^ 32 ∧ Direct e c ∧ c ≠ 0)
    (hn : cs.length < n) :
    nameKey e n (cs.flatMap e.print) = .ok (((taken cs).flatMap fun c => e.print (unamp c)).take 1024) :=
  nameKey_text (byteSet_page he).1 (byteSet_page he).2 hc hn

example : nameKey .utf8 100 (([97, 38, 228, 32, 98] : List UChar).flatMap Enc.utf8.print) = .ok [97, 0, 195, 164] := by
  rw [C85_key (.inl rfl) (by simp [Direct]) (by decide)]
  decide +kernel

/-- C85 (partial): a text of at most 1024 bytes of name characters asks for itself.

Missing: the interface also promises the other characters as references, see `C85_entity_false`; the values of attributes can
have other characters and any length, see `C85_value_false` and `C85_long_false`. -/
theorem C85_self_partial {e : Enc} (he : ByteSet e) {cs : List UChar} {n : Nat} (hc : ∀ c ∈ cs, c < 2 ^ 32 ∧ Direct e c ∧ InName c)
    (hl : (cs.flatMap e.print).length ≤ 1024) (hn : cs.length < n) (op : Op) (p : PElem) :
    p.doSelect e n op (some (cs.flatMap e.print)) = p.select op (some (cs.flatMap e.print)) := by
  have h0 : ∀ c ∈ cs, c ≠ 0 := by
    rintro c h rfl
    have := (hc 0 h).2.2.1
    omega
  have h1 : taken cs = cs := by
    unfold taken
    have := List.takeWhile_append_of_pos (p := fun c => decide (InName c ∨ c = 38)) (l₁ := cs) (l₂ := []) fun c h => by simp [(hc c h).2.2]
    rw [List.append_nil, List.takeWhile_nil, List.append_nil] at this
    exact this
  have h2 : ∀ xs : List UChar, (∀ c ∈ xs, InName c) → (xs.flatMap fun c => e.print (unamp c)) = xs.flatMap e.print := by
    intro xs
    induction xs with
    | nil => intro _; rfl
    | cons c xs ih =>
      intro h
      have : unamp c = c := by
        unfold unamp
        rw [if_neg]
        rintro rfl
        exact (h 38 (List.mem_cons_self ..)).2 (by decide)
      rw [List.flatMap_cons, List.flatMap_cons, ih fun c hc => h c (List.mem_cons_of_mem _ hc), this]
  unfold PElem.doSelect
  simp only []
  rw [C85_key he (fun c h => ⟨(hc c h).1, (hc c h).2.1, h0 c h⟩) hn, h1, h2 cs fun c h => (hc c h).2.2, List.take_of_length_le hl]

example (p : PElem) : p.doSelect .utf8 100 .OpenTag (some (([97, 228, 45] : List UChar).flatMap Enc.utf8.print)) =
    p.select .OpenTag (some (([97, 228, 45] : List UChar).flatMap Enc.utf8.print)) :=
  C85_self_partial (.inl rfl) (by simp [Direct]; decide) (by decide) (by decide) _ _

/-- C85: what comes behind the first character that is none of a name does not count, with any text before and behind. -/
theorem C85_cut {e : Enc} (he : ByteSet e) {xs ys : List UChar} {c : UChar} {n : Nat}
    (hc : ∀ d ∈ xs ++ c :: ys, d < 2 ^ 32 ∧ Direct e d ∧ d ≠ 0) (h1 : ¬ InName c) (h2 : c ≠ 38) (hn : (xs ++ c :: ys).length < n)
    (op : Op) (p : PElem) :
    p.doSelect e n op (some ((xs ++ c :: ys).flatMap e.print)) = p.doSelect e n op (some (xs.flatMap e.print)) := by
  have h3 : taken (xs ++ c :: ys) = taken xs := by
    unfold taken
    induction xs with
    | nil => simp [h1, h2]
    | cons x xs ih =>
      rw [List.cons_append, List.takeWhile_cons, List.takeWhile_cons, ih (fun d hd => hc d (List.mem_cons_of_mem _ hd)) (by simp at hn ⊢; omega)]
  unfold PElem.doSelect
  simp only []
  rw [C85_key he hc hn, C85_key he (fun d hd => hc d (List.mem_append_left _ hd)) (by simp at hn; omega), h3]

example (p : PElem) : p.doSelect .utf8 100 .OpenTag (some (([97] ++ 32 :: [98] : List UChar).flatMap Enc.utf8.print)) =
    p.doSelect .utf8 100 .OpenTag (some (([97] : List UChar).flatMap Enc.utf8.print)) :=
  C85_cut (.inl rfl) (by simp [Direct]) (by decide) (by decide) (by decide) _ _

/-- C85: texts with the same first 1024 bytes can not be told apart. -/
theorem C85_long {e : Enc} (he : ByteSet e) {xs ys zs : List UChar} {n : Nat}
    (hy : ∀ c ∈ xs ++ ys, c < 2 ^ 32 ∧ Direct e c ∧ c ≠ 0) (hz : ∀ c ∈ xs ++ zs, c < 2 ^ 32 ∧ Direct e c ∧ c ≠ 0)
    (hx : ∀ c ∈ xs, InName c) (hl : 1024 ≤ xs.length) (hny : (xs ++ ys).length < n) (hnz : (xs ++ zs).length < n) (op : Op) (p : PElem) :
    p.doSelect e n op (some ((xs ++ ys).flatMap e.print)) = p.doSelect e n op (some ((xs ++ zs).flatMap e.print)) := by
  have h1 : ∀ ws : List UChar, taken (xs ++ ws) = xs ++ taken ws := by
    intro ws
    unfold taken
    rw [List.takeWhile_append_of_pos]
    intro c h
    simp [hx c h]
  have h2 : 1024 ≤ (xs.flatMap fun c => e.print (unamp c)).length := by
    refine Nat.le_trans hl ?_
    have : ∀ us : List UChar, (∀ c ∈ us, 1 ≤ (e.print (unamp c)).length) → us.length ≤ (us.flatMap fun c => e.print (unamp c)).length := by
      intro us
      induction us with
      | nil => simp
      | cons c us ih =>
        intro h
        have h1 := h c (List.mem_cons_self ..)
        have h2 := ih fun c hc => h c (List.mem_cons_of_mem _ hc)
        simp only [List.flatMap_cons, List.length_append, List.length_cons]
        omega
    refine this xs fun c h => ?_
    have : unamp c = c := by
      unfold unamp
      rw [if_neg]
      rintro rfl
      exact (hx 38 h).2 (by decide)
    rw [this]
    exact print_ne (byteSet_page he).1 (hy c (List.mem_append_left _ h)).1 (hy c (List.mem_append_left _ h)).2.1
  unfold PElem.doSelect
  simp only []
  rw [C85_key he hy hny, C85_key he hz hnz, h1, h1, List.flatMap_append, List.flatMap_append, List.take_append_of_le_length h2,
    List.take_append_of_le_length h2]

example (p : PElem) : p.doSelect .utf8 2000 .OpenTag (some ((List.replicate 1024 97 ++ [98]).flatMap Enc.utf8.print)) =
    p.doSelect .utf8 2000 .OpenTag (some ((List.replicate 1024 97 ++ [99]).flatMap Enc.utf8.print)) := by
  have h : ∀ c ∈ List.replicate 1024 97 ++ [98, 99], c < 2 ^ 32 ∧ Direct .utf8 c ∧ c ≠ 0 := by
    intro c h
    rcases List.mem_append.1 h with h | h
    · rw [List.eq_of_mem_replicate h]; simp [Direct]
    · simp only [List.mem_cons, List.not_mem_nil, or_false] at h
      rcases h with rfl | rfl <;> simp [Direct]
  refine C85_long (.inl rfl) (fun c k => h c ?_) (fun c k => h c ?_) (fun c h => ?_) (by rw [List.length_replicate]; decide)
    (by rw [List.length_append, List.length_replicate]; decide) (by rw [List.length_append, List.length_replicate]; decide) _ _
  · rcases List.mem_append.1 k with k | k
    · exact List.mem_append_left _ k
    · exact List.mem_append_right _ (by simp only [List.mem_cons, List.not_mem_nil, or_false] at k ⊢; exact .inl k)
  · rcases List.mem_append.1 k with k | k
    · exact List.mem_append_left _ k
    · exact List.mem_append_right _ (by simp only [List.mem_cons, List.not_mem_nil, or_false] at k ⊢; exact .inr k)
  · rw [List.eq_of_mem_replicate h]; decide

/-- C85 is false for references: the tag `&#228;` of the interface does not select the element `ä`, the tag `ä` does. -/
theorem C85_entity_false :
    Selects .utf8 2000 [[.tag (some (ascii "&#228;")), .assign 1], [.tag (some [195, 164]), .assign 2]] [(.OpenTag, [195, 164])] [[2]] :=
  selects_of_run 100 (by decide +kernel)

/-- C85 is false for values: the elements `a` with `k='x y'` are not selected by this value, but those with `k='x'` are. -/
theorem C85_value_false :
    let defs : List (List PElem.Call) := [[.tag (some [97]), .ifAttribute (some [107]) (some (ascii "x y")), .assign 1]]
    Selects .utf8 2000 defs [(.OpenTag, [97]), (.TagAttribName, [107]), (.TagAttribValue, ascii "x y")] [[], [], []] ∧
    Selects .utf8 2000 defs [(.OpenTag, [97]), (.TagAttribName, [107]), (.TagAttribValue, ascii "x")] [[], [], [1]] :=
  ⟨selects_of_run 100 (by decide +kernel), selects_of_run 100 (by decide +kernel)⟩

/-- A text of the letter `a`. -/
def manyA (n : Nat) : List UChar := List.replicate n 97

theorem manyA_print (n : Nat) : (manyA n).flatMap Enc.utf8.print = manyA n := by
  induction n with
  | zero => rfl
  | succ n ih =>
    show List.flatMap Enc.utf8.print (97 :: manyA n) = 97 :: manyA n
    rw [List.flatMap_cons, ih]
    rfl

theorem manyA_ok {n : Nat} : ∀ c ∈ manyA n, c < 2 ^ 32 ∧ Direct .utf8 c ∧ c ≠ 0 := by
  intro c h
  rw [List.eq_of_mem_replicate h]
  simp [Direct]

/-- C85 is false for long names: an element with a name of 1025 bytes is not selected by its name, one with the first 1024
bytes of it is. -/
theorem C85_long_false : ∃ rss,
    Selects .utf8 2000 [[.tag (some (manyA 1025)), .assign 1]]
      [(.OpenTag, manyA 1025), (.CloseTag, []), (.OpenTag, manyA 1024)] rss ∧ rss.map (·.count 1) = [0, 0, 1] := by
  have hl : ∀ n, (manyA n).length = n := fun n => List.length_replicate
  have hne : manyA 1024 ≠ manyA 1025 := fun h => by
    have := congrArg List.length h
    rw [hl, hl] at this
    omega
  obtain ⟨rss, ⟨a, s, h1, h2⟩, h3⟩ := C42_absolute (e := .utf8) (.inl rfl) (n := 2000) (by omega) [([manyA 1024], 1)]
    (by simp) (by
      intro p hp
      simp only [List.mem_cons, List.not_mem_nil, or_false] at hp
      subst hp
      refine ⟨by simp, fun nm h => ?_⟩
      simp only [List.mem_cons, List.not_mem_nil, or_false] at h
      subst h
      refine ⟨fun h => by have := congrArg List.length h; rw [hl] at this; simp at this, by rw [hl]; omega, manyA 1024, (manyA_print _).symm,
        fun c h => ?_⟩
      have hk := manyA_ok c h
      exact ⟨hk.1, hk.2.1, hk.2.2, by rw [List.eq_of_mem_replicate h]; decide⟩)
    [(.OpenTag, manyA 1025), (.CloseTag, []), (.OpenTag, manyA 1024)] (by simp [HeaderNames])
  refine ⟨rss, ⟨a, s, ?_, h2⟩, ?_⟩
  · rw [← h1]
    have hk : ∀ p : PElem, p.doSelect .utf8 2000 .OpenTag (some (manyA 1025)) = p.doSelect .utf8 2000 .OpenTag (some (manyA 1024)) := by
      intro p
      have := C85_long (e := .utf8) (.inl rfl) (xs := manyA 1024) (ys := manyA 1) (zs := manyA 0) (n := 2000)
        (fun c h => (List.mem_append.1 h).elim (manyA_ok c) (manyA_ok c)) (fun c h => (List.mem_append.1 h).elim (manyA_ok c) (manyA_ok c))
        (fun c h => by rw [List.eq_of_mem_replicate h]; decide) (by rw [hl]; omega) (by rw [List.length_append, hl, hl]; omega)
        (by rw [List.length_append, hl, hl]; omega) .OpenTag p
      rw [show manyA 1024 ++ manyA 1 = manyA 1025 from List.replicate_append_replicate,
        show manyA 1024 ++ manyA 0 = manyA 1024 from List.replicate_append_replicate, manyA_print, manyA_print] at this
      exact this
    simp only [build, PElem.calls, PElem.call, List.map_cons, List.map_nil, absolute, Expr.calls, List.flatMap_cons, List.flatMap_nil, List.append_nil, List.nil_append, List.cons_append, Bool.false_eq_true, if_false, hk]
  · rw [h3 1 (by omega)]
    simp [opened, after, hne.symm]

end TW
