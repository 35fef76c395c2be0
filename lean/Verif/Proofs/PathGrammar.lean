import Verif.Proofs.PathParse

/-!
# The parser of path expressions on any text

What is read by each function of the parser, whatever the text is.
-/

namespace TW

open Spec Spec.Path TW.Path

variable {bs : List Byte} {hb : ∀ b ∈ bs, b < 256} {e e' : Enc} {t : Parse.Src} {c : UChar} {cs : List UChar} {n : Nat}

/-- `x` reads a part of the text and leaves the rest; `P` tells about the result, the part and the rest. -/
def Gets (bs : List Byte) (hb : ∀ b ∈ bs, b < 256) (e : Enc) {α : Type} (x : M Parse.Src α) (t : Parse.Src) (cs : List UChar)
    (P : α → List UChar → List UChar → Prop) : Prop :=
  ∃ r t' p rest, x t = (.ok r, t') ∧ Rd bs hb e t' rest ∧ cs = p ++ rest ∧ P r p rest

theorem Gets.bind {α β : Type} {x : M Parse.Src α} {f : α → M Parse.Src β} {P : α → List UChar → List UChar → Prop}
    {Q : β → List UChar → List UChar → Prop} (h : Gets bs hb e x t cs P)
    (k : ∀ r t' p rest, Rd bs hb e t' rest → cs = p ++ rest → P r p rest →
      Gets bs hb e (f r) t' rest fun r' p' rest' => Q r' (p ++ p') rest') : Gets bs hb e (x >>= f) t cs Q := by
  obtain ⟨r, t', p, rest, h1, h2, h3, h4⟩ := h
  obtain ⟨r', t'', p', rest', k1, k2, k3, k4⟩ := k r t' p rest h2 h3 h4
  exact ⟨r', t'', p ++ p', rest', (M.bind_ok h1).trans k1, k2, by rw [h3, k3, List.append_assoc], k4⟩

theorem Gets.pure {α : Type} {P : α → List UChar → List UChar → Prop} (h : Rd bs hb e t cs) {r : α} (hp : P r [] cs) :
    Gets bs hb e (pure r) t cs P := ⟨r, t, [], cs, rfl, h, rfl, hp⟩

theorem Gets.imp {α : Type} {x : M Parse.Src α} {P Q : α → List UChar → List UChar → Prop} (h : Gets bs hb e x t cs P)
    (k : ∀ r p rest, cs = p ++ rest → P r p rest → Q r p rest) : Gets bs hb e x t cs Q := by
  obtain ⟨r, t', p, rest, h1, h2, h3, h4⟩ := h
  exact ⟨r, t', p, rest, h1, h2, h3, k r p rest h3 h4⟩

theorem Gets.chr {α : Type} {f : UChar → M Parse.Src α} {Q : α → List UChar → List UChar → Prop} (he : PageOk e) (h : Rd bs hb e t cs)
    (k : ∀ t', Rd bs hb e t' cs → Gets bs hb e (f (first cs)) t' cs Q) : Gets bs hb e (TextScanner.chr >>= f) t cs Q := by
  obtain ⟨t', h1, h2⟩ := h.chr he
  obtain ⟨r, t'', p, rest, k1, k2⟩ := k t' h2
  exact ⟨r, t'', p, rest, (M.bind_ok h1).trans k1, k2⟩

theorem Gets.skip {α : Type} {f : Unit → M Parse.Src α} {Q : α → List UChar → List UChar → Prop} (he : PageOk e) (h : Rd bs hb e t (c :: cs))
    (k : ∀ t', Rd bs hb e t' cs → Gets bs hb e (f ()) t' cs fun r p rest => Q r (c :: p) rest) :
    Gets bs hb e (TextScanner.skip >>= f) t (c :: cs) Q := by
  obtain ⟨t', h1, h2⟩ := h.skip he
  obtain ⟨r, t'', p, rest, k1, k2, rfl, k3⟩ := k t' h2
  exact ⟨r, t'', c :: p, rest, (M.bind_ok h1).trans k1, k2, rfl, k3⟩

theorem Gets.isIdentifierChar {α : Type} {f : Bool → M Parse.Src α} {Q : α → List UChar → List UChar → Prop} (he : PageOk e) (h : Rd bs hb e t cs)
    (k : ∀ t', Rd bs hb e t' cs → Gets bs hb e (f (isId cs)) t' cs Q) : Gets bs hb e (Parse.isIdentifierChar >>= f) t cs Q := by
  obtain ⟨t', h1, h2⟩ := h.isIdentifierChar he
  obtain ⟨r, t'', p, rest, k1, k2⟩ := k t' h2
  exact ⟨r, t'', p, rest, (M.bind_ok h1).trans k1, k2⟩

/-! ## Cutting texts -/

theorem cut (q : UChar → Prop) [DecidablePred q] (cs : List UChar) : ∃ p rest, cs = p ++ rest ∧ (∀ c ∈ p, q c) ∧ ∀ c r, rest = c :: r → ¬ q c := by
  induction cs with
  | nil => exact ⟨[], [], rfl, by simp, by simp⟩
  | cons c cs ih =>
    by_cases hc : q c
    · obtain ⟨p, rest, rfl, h1, h2⟩ := ih
      exact ⟨c :: p, rest, rfl, by simpa [hc] using h1, h2⟩
    · exact ⟨[], c :: cs, rfl, by simp, by rintro c' r ⟨⟩; exact hc⟩

theorem space_iff : ∀ b : Nat, b < 256 → (controlCharMap b = .Space ↔ b = 9 ∨ b = 13 ∨ b = 32) := by
  have : ∀ b : Fin 256, (controlCharMap b.1 = .Space ↔ b.1 = 9 ∨ b.1 = 13 ∨ b.1 = 32) := by decide +kernel
  exact fun b hb => this ⟨b, hb⟩

theorem noBlank_iff (c : UChar) (cs : List UChar) : NoBlank (c :: cs) ↔ ¬ (c = 9 ∨ c = 13 ∨ c = 32) := by
  have h : ascOf (c :: cs) = if c < 128 then c else 255 := rfl
  unfold NoBlank
  rw [h]
  split
  · rw [ne_eq, space_iff c (by omega)]
  · rw [ne_eq, space_iff 255 (by omega)]
    omega

theorem Gets.spaces (he : PageOk e) (h : Rd bs hb e t cs) (hn : cs.length < n) :
    Gets bs hb e (Parse.skipSpaces n) t cs fun _ p rest => Blanks p ∧ NoBlank rest := by
  obtain ⟨p, rest, rfl, h1, h2⟩ := cut (fun c => c = 9 ∨ c = 13 ∨ c = 32) cs
  have h3 : NoBlank rest := by
    cases rest with
    | nil => exact (show controlCharMap 0 ≠ .Space by decide)
    | cons c r => exact (noBlank_iff c r).2 (h2 c r rfl)
  obtain ⟨t', k1, k2⟩ := h.spaces (n := n) he h1 h3 (by simp at hn; omega)
  exact ⟨(), t', p, rest, k1, k2, rfl, h1, h3⟩

theorem isId_idChar (h : isId (c :: cs) = true) : IdChar c := by
  rw [isId_cons] at h
  by_cases hc : c < 128
  · obtain ⟨h1, h2⟩ := (isId_ascii c hc).1 h
    exact ⟨h1, h2, fun h => by omega⟩
  · refine ⟨.inl (by omega), ?_, fun _ => ?_⟩
    · have : ∀ x ∈ ascii "!\"&'()*,-/;<=>?@[]{}~", x < 128 := by decide
      exact fun k => hc (this c k)
    · simp only [isId, Bool.and_eq_true, Bool.not_eq_true', first] at h
      have h2 := h.2
      unfold Parse.isOpChar at h2
      rw [List.contains_eq_mem, decide_eq_false_iff_not, List.mem_append] at h2
      exact ⟨fun k => h2 (.inr (by simp [k])), fun k => h2 (.inl k)⟩

theorem isId_nil : isId [] = false := by decide

theorem Gets.parseIdentifier (he : PageOk e) (h : Rd bs hb e t cs) (hn : cs.length < n) :
    Gets bs hb e (Parse.parseIdentifier e' n) t cs fun r p rest =>
      r = p.flatMap e'.print ∧ (∀ c ∈ p, IdChar c) ∧ isId rest = false ∧ (isId cs = true → Identifier p) := by
  obtain ⟨p, rest, rfl, h1, h2⟩ := cut (fun c => isId [c] = true) cs
  have h3 : isId rest = false := by
    cases rest with
    | nil => exact isId_nil
    | cons c r => rw [isId_cons]; simpa using h2 c r rfl
  have h4 : ∀ c ∈ p, IdChar c := fun c hc => isId_idChar (cs := []) (h1 c hc)
  obtain ⟨t', k1, k2⟩ := Rd.parseIdentifier (e' := e') he p n t h h4 h3 (by simp at hn; omega)
  refine ⟨_, t', p, rest, k1, k2, rfl, rfl, h4, h3, fun hi => ⟨?_, h4⟩⟩
  rintro rfl
  rw [List.nil_append, h3] at hi
  cases hi

theorem Gets.parseNum (he : PageOk e) (h : Rd bs hb e t cs) (hn : cs.length < n) :
    Gets bs hb e (Parse.parseNum n) t cs fun r p _ => ∀ i, r = some i → Number p ∧ i = decimal p := by
  obtain ⟨p, rest, rfl, h1, h2⟩ := cut (fun c => 48 ≤ c ∧ c ≤ 57) cs
  have h3 : ¬ (48 ≤ first rest ∧ first rest ≤ 57) := by
    cases rest with
    | nil => simp [first]
    | cons c r => exact h2 c r rfl
  obtain ⟨t', k1, k2⟩ := Rd.digits he p n t h h1 h3 (by simp at hn; omega)
  refine ⟨_, t', p, rest, M.bind_ok k1, k2, rfl, fun i hi => ?_⟩
  split at hi
  · cases hi
  · cases hi
    exact ⟨⟨by rintro rfl; simp at *, by omega, h1⟩, rfl⟩

theorem Rd.plain (h : Rd bs hb e t cs) : ∀ c ∈ cs, c ≠ 0 := by
  obtain ⟨k, ld, -, -, h9, -⟩ := h
  exact fun c hc => (h9 c hc).1

/-- A quoted value without the end. -/
theorem Rd.quoted_end (he : PageOk e) {q : UChar} (id : List UChar) : ∀ (n : Nat) (t : Parse.Src), Rd bs hb e t id →
    (∀ c ∈ id, c ≠ 0 ∧ c ≠ q) → id.length < n →
    ∃ t', Parse.quoted e' q n t = (.ok (id.flatMap e'.print), t') ∧ Rd bs hb e t' [] := by
  induction id with
  | nil =>
    intro n t h _ hl
    obtain ⟨n, rfl⟩ : ∃ m, n = m + 1 := ⟨n - 1, by simp at hl; omega⟩
    obtain ⟨t', h1, h2⟩ := h.chr he
    refine ⟨t', ?_, h2⟩
    unfold Parse.quoted
    rw [M.bind_ok h1, if_neg (by simp [first])]
    rfl
  | cons c id ih =>
    intro n t h hi hl
    obtain ⟨n, rfl⟩ : ∃ m, n = m + 1 := ⟨n - 1, by simp at hl; omega⟩
    obtain ⟨t2, h3, h4⟩ := h.chr he
    obtain ⟨t3, h5, h6⟩ := h4.skip he
    obtain ⟨t4, h7, h8⟩ := ih n t3 h6 (fun c hc => hi c (by simp [hc])) (by simp at hl; omega)
    refine ⟨t4, ?_, h8⟩
    unfold Parse.quoted
    rw [M.bind_ok h3, first_cons, if_pos (hi c (by simp)), M.bind_ok h5, M.bind_ok h7]
    rfl

theorem Gets.quoted (he : PageOk e) {q : UChar} (hq : q ≠ 0) (h : Rd bs hb e t cs) (hn : cs.length < n) :
    Gets bs hb e (Parse.quoted e' q n) t cs fun r p rest => r = p.flatMap e'.print ∧ (∀ c ∈ p, c ≠ 0 ∧ c ≠ q) ∧
      (rest = [] ∨ ∃ r, rest = q :: r) := by
  obtain ⟨p, rest, rfl, h1, h2⟩ := cut (fun c => c ≠ 0 ∧ c ≠ q) cs
  cases rest with
  | nil =>
    obtain ⟨t', k1, k2⟩ := Rd.quoted_end (e' := e') he (q := q) p n t (by simpa using h) h1 (by simpa using hn)
    exact ⟨_, t', p, [], k1, k2, rfl, rfl, h1, .inl rfl⟩
  | cons c r =>
    have : c = q := by
      have := h2 c r rfl
      have := h.plain c (by simp)
      grind
    subst this
    obtain ⟨t', k1, k2⟩ := Rd.quoted (e' := e') he p n t h h1 (by simp at hn; omega)
    exact ⟨_, t', p, _, k1, k2, rfl, rfl, h1, .inr ⟨r, rfl⟩⟩

/-- A value, or the text is at its end. -/
theorem Gets.parseValue (he : PageOk e) (h : Rd bs hb e t cs) (hn : cs.length < n) :
    Gets bs hb e (Parse.parseValue e' n) t cs fun r p rest => ∀ v, r = some v →
      rest = [] ∨ ∃ tv : TValue, tv.Ok ∧ tv.text = p ∧ v = tv.chars.flatMap e'.print := by
  unfold Parse.parseValue
  refine Gets.chr he h fun t1 h1 => ?_
  split
  · rename_i hq
    cases cs with
    | nil => simp [first] at hq
    | cons c cs =>
      rw [first_cons] at hq ⊢
      have hq0 : c ≠ 0 := by omega
      refine Gets.skip he h1 fun t2 h2 => ?_
      refine (Gets.quoted (e' := e') he hq0 h2 (by simp at hn; omega)).bind ?_
      rintro _ t3 p3 rest3 h3 hc3 ⟨rfl, hp3, hr3⟩
      refine Gets.chr he h3 fun t4 h4 => ?_
      rcases hr3 with rfl | ⟨r, rfl⟩
      · rw [if_neg (by simp [first])]
        exact Gets.pure h4 fun _ _ => .inl rfl
      · rw [first_cons, if_pos hq0]
        refine Gets.skip he h4 fun t5 h5 => ?_
        refine Gets.pure h5 fun v hv => .inr ⟨.quoted c p3, ⟨hq, hp3⟩, ?_, ?_⟩
        · simp [TValue.text]
        · cases hv
          rfl
  · rename_i hq
    refine Gets.isIdentifierChar he h1 fun t2 h2 => ?_
    split
    · rename_i hi
      refine (Gets.parseIdentifier (e' := e') he h2 hn).bind ?_
      rintro _ t3 p3 rest3 h3 hc3 ⟨rfl, -, -, hp3⟩
      refine Gets.pure h3 fun v hv => .inr ⟨.bare p3, hp3 hi, by simp [TValue.text], ?_⟩
      cases hv
      rfl
    · exact Gets.pure h2 fun _ h => nomatch h

theorem Gets.identifiers (he : PageOk e) : ∀ (m : Nat) (t : Parse.Src) (c : UChar) (cs : List UChar), Rd bs hb e t (c :: cs) → cs.length < m → cs.length < n →
    Gets bs hb e (Parse.identifiers e' n m) t (c :: cs) fun r p _ => ∀ l, r = some l →
      ∃ ids q, p = c :: q ∧ Listed ids q ∧ (∀ id ∈ ids, Identifier id) ∧ l = ids.map fun id => id.flatMap e'.print := by
  intro m
  induction m with
  | zero => intro t c cs _ h; omega
  | succ m ih =>
    intro t c cs h hm hn
    unfold Parse.identifiers
    refine Gets.skip he h fun t1 h1 => ?_
    refine (Gets.spaces (n := n) he h1 hn).bind ?_
    rintro _ t2 b2 rest2 h2 rfl ⟨hb2, -⟩
    simp only [List.length_append] at hn hm
    refine Gets.isIdentifierChar he h2 fun t3 h3 => ?_
    split
    · rename_i hi
      refine (Gets.parseIdentifier (e' := e') (n := n) he h3 (by omega)).bind ?_
      rintro _ t4 id rest4 h4 rfl ⟨rfl, -, -, hid⟩
      replace hid := hid hi
      simp only [List.length_append] at hn hm
      refine (Gets.spaces (n := n) he h4 (by omega)).bind ?_
      rintro _ t5 b5 rest5 h5 rfl ⟨hb5, -⟩
      simp only [List.length_append] at hn hm
      refine Gets.chr he h5 fun t6 h6 => ?_
      split
      · rename_i hcomma
        cases rest5 with
        | nil => simp [first] at hcomma
        | cons x rest5 =>
          cases (show x = 44 from hcomma)
          simp only [List.length_cons] at hn hm
          refine (ih t6 44 rest5 h6 (by omega) (by omega)).bind ?_
          rintro r t7 p7 rest7 h7 hc7 hr7
          refine Gets.pure h7 fun l hl => ?_
          cases r with
          | none => cases hl
          | some l' =>
            obtain ⟨ids, q, rfl, k1, k2, rfl⟩ := hr7 l' rfl
            cases hl
            refine ⟨id :: ids, b2 ++ id ++ b5 ++ [44] ++ q, by simp, ?_, by simpa [hid] using k2, rfl⟩
            cases ids with
            | nil => exact k1.elim
            | cons x ids => exact ⟨b2, b5, q, hb2, hb5, rfl, k1⟩
      · refine Gets.pure h6 fun l hl => ?_
        cases hl
        exact ⟨[id], b2 ++ id ++ b5, by simp, ⟨b2, b5, hb2, hb5, rfl⟩, by simpa using hid, rfl⟩
    · exact Gets.pure h3 fun _ h => nomatch h

theorem Gets.identifierList (he : PageOk e) (h : Rd bs hb e t (123 :: cs)) (hn : cs.length < n) :
    Gets bs hb e (Parse.identifierList e' n) t (123 :: cs) fun r p _ => ∀ l, r = some l →
      ∃ ids, (TName.alt ids).Ok ∧ (TName.alt ids).Text p ∧ l = ids.map fun id => id.flatMap e'.print := by
  unfold Parse.identifierList
  refine (Gets.identifiers (e' := e') he n t 123 cs h hn hn).bind ?_
  rintro r t1 p1 rest1 h1 hc1 hr1
  cases r with
  | none => exact Gets.pure h1 fun _ h => nomatch h
  | some l =>
    obtain ⟨ids, q, rfl, k1, k2, rfl⟩ := hr1 l rfl
    refine Gets.chr he h1 fun t2 h2 => ?_
    split
    · exact Gets.pure h2 fun _ h => nomatch h
    · rename_i hc
      cases rest1 with
      | nil => simp [first] at hc
      | cons x rest1 =>
        cases (show x = 125 by simpa [first] using hc)
        refine Gets.skip he h2 fun t3 h3 => ?_
        refine Gets.pure h3 fun l hl => ?_
        cases hl
        refine ⟨ids, ⟨?_, k2⟩, ⟨q, k1, by simp⟩, rfl⟩
        rintro rfl
        exact k1

theorem Spec.Path.Blanks.append {b b' : List UChar} (h : Blanks b) (h' : Blanks b') : Blanks (b ++ b') := by
  intro c hc
  rcases List.mem_append.1 hc with hc | hc
  · exact h c hc
  · exact h' c hc

theorem Gets.attributeCondition (he : PageOk e) (h : Rd bs hb e t (64 :: cs)) (hn : cs.length < n) :
    Gets bs hb e (Parse.attributeCondition e' n) t (64 :: cs) fun r p _ => ∀ act, r = some act →
      ∃ c : TCond, c.Ok ∧ (∀ b, Blanks b → c.Text ([91] ++ b ++ p)) ∧ act = .call (c.call e') := by
  unfold Parse.attributeCondition
  refine Gets.skip he h fun t1 h1 => ?_
  refine (Gets.spaces (n := n) he h1 hn).bind ?_
  rintro _ t2 b2 rest2 h2 rfl ⟨hb2, -⟩
  simp only [List.length_append] at hn
  refine Gets.isIdentifierChar he h2 fun t3 h3 => ?_
  split
  · rename_i hi
    refine (Gets.parseIdentifier (e' := e') (n := n) he h3 (by omega)).bind ?_
    rintro _ t4 id rest4 h4 rfl ⟨rfl, -, -, hid⟩
    replace hid := hid hi
    simp only [List.length_append] at hn
    refine (Gets.spaces (n := n) he h4 (by omega)).bind ?_
    rintro _ t5 b5 rest5 h5 rfl ⟨hb5, -⟩
    simp only [List.length_append] at hn
    refine Gets.chr he h5 fun t6 h6 => ?_
    split
    · exact Gets.pure h6 fun _ h => nomatch h
    · rename_i hc
      cases rest5 with
      | nil => simp [first] at hc
      | cons x rest5 =>
        cases (show x = 61 by simpa [first] using hc)
        simp only [List.length_cons] at hn
        refine Gets.skip he h6 fun t7 h7 => ?_
        refine (Gets.spaces (n := n) he h7 (by omega)).bind ?_
        rintro _ t8 b8 rest8 h8 rfl ⟨hb8, -⟩
        simp only [List.length_append] at hn
        refine (Gets.parseValue (e' := e') (n := n) he h8 (by omega)).bind ?_
        rintro value t9 p9 rest9 h9 rfl hv
        simp only [List.length_append] at hn
        refine (Gets.spaces (n := n) he h9 (by omega)).bind ?_
        rintro _ t10 b10 rest10 h10 rfl ⟨hb10, -⟩
        cases value with
        | none => exact Gets.pure h10 fun _ h => nomatch h
        | some v =>
          refine Gets.chr he h10 fun t11 h11 => ?_
          split
          · exact Gets.pure h11 fun _ h => nomatch h
          · rename_i hc
            cases rest10 with
            | nil => simp [first] at hc
            | cons x rest10 =>
              cases (show x = 93 by simpa [first] using hc)
              refine Gets.skip he h11 fun t12 h12 => ?_
              refine Gets.pure h12 fun act hact => ?_
              cases hact
              rcases hv v rfl with k | ⟨tv, k1, rfl, rfl⟩
              · simp at k
              · exact ⟨.attr id tv, ⟨hid, k1⟩, fun b hb => ⟨b, b2, b5, b8, b10, hb, hb2, hb5, hb8, hb10, by simp⟩, rfl⟩
  · exact Gets.pure h3 fun _ h => nomatch h

theorem Gets.rangeCondition (he : PageOk e) (h : Rd bs hb e t cs) (hn : cs.length < n) :
    Gets bs hb e (Parse.rangeCondition n) t cs fun r p _ => ∀ act, r = some act →
      ∃ c : TCond, c.Ok ∧ (∀ b, Blanks b → c.Text ([91] ++ b ++ p)) ∧ act = .call (c.call e') := by
  unfold Parse.rangeCondition
  refine (Gets.spaces (n := n) he h hn).bind ?_
  rintro _ t2 b2 rest2 h2 rfl ⟨hb2, -⟩
  simp only [List.length_append] at hn
  refine Gets.isIdentifierChar he h2 fun t3 h3 => ?_
  split
  · refine (Gets.parseNum (n := n) he h3 (by omega)).bind ?_
    rintro num t4 i rest4 h4 rfl hi
    simp only [List.length_append] at hn
    cases num with
    | none => exact Gets.pure h4 fun _ h => nomatch h
    | some num =>
      replace hi := hi num rfl
      obtain ⟨hi, rfl⟩ := hi
      refine (Gets.spaces (n := n) he h4 (by omega)).bind ?_
      rintro _ t5 b5 rest5 h5 rfl ⟨hb5, -⟩
      simp only [List.length_append] at hn
      refine Gets.chr he h5 fun t6 h6 => ?_
      split
      · rename_i hc
        cases rest5 with
        | nil => simp [first] at hc
        | cons x rest5 =>
          cases (show x = 44 from hc)
          simp only [List.length_cons] at hn
          refine Gets.skip he h6 fun t7 h7 => ?_
          refine (Gets.spaces (n := n) he h7 (by omega)).bind ?_
          rintro _ t8 b8 rest8 h8 rfl ⟨hb8, -⟩
          simp only [List.length_append] at hn
          refine Gets.chr he h8 fun t9 h9 => ?_
          split
          · rename_i hc
            cases rest8 with
            | nil => simp [first] at hc
            | cons x rest8 =>
              cases (show x = 93 from hc)
              refine Gets.skip he h9 fun t12 h12 => ?_
              refine Gets.pure h12 fun act hact => ?_
              cases hact
              exact ⟨.from' i, hi, fun b hb => ⟨b ++ b2, b5, b8, hb.append hb2, hb5, hb8, by simp⟩, rfl⟩
          · refine Gets.isIdentifierChar he h9 fun t10 h10 => ?_
            split
            · refine (Gets.parseNum (n := n) he h10 (by omega)).bind ?_
              rintro num t11 j rest11 h11 rfl hj
              simp only [List.length_append] at hn
              cases num with
              | none => exact Gets.pure h11 fun _ h => nomatch h
              | some num =>
                replace hj := hj num rfl
                obtain ⟨hj, rfl⟩ := hj
                refine (Gets.spaces (n := n) he h11 (by omega)).bind ?_
                rintro _ t13 b13 rest13 h13 rfl ⟨hb13, -⟩
                refine Gets.chr he h13 fun t14 h14 => ?_
                split
                · exact Gets.pure h14 fun _ h => nomatch h
                · rename_i hc
                  cases rest13 with
                  | nil => simp [first] at hc
                  | cons x rest13 =>
                    cases (show x = 93 by simpa [first] using hc)
                    refine Gets.skip he h14 fun t12 h12 => ?_
                    refine Gets.pure h12 fun act hact => ?_
                    cases hact
                    exact ⟨.range i j, ⟨hi, hj⟩, fun b hb => ⟨b ++ b2, b5, b8, b13, hb.append hb2, hb5, hb8, hb13, by simp⟩, rfl⟩
            · exact Gets.pure h10 fun _ h => nomatch h
      · split
        · rename_i hc
          cases rest5 with
          | nil => simp [first] at hc
          | cons x rest5 =>
            cases (show x = 93 from hc)
            refine Gets.skip he h6 fun t12 h12 => ?_
            refine Gets.pure h12 fun act hact => ?_
            cases hact
            exact ⟨.index i, hi, fun b hb => ⟨b ++ b2, b5, hb.append hb2, hb5, by simp⟩, rfl⟩
        · exact Gets.pure h6 fun _ h => nomatch h
  · exact Gets.pure h3 fun _ h => nomatch h

/-! ## The loop -/

/-- A turn that goes on has read a piece. -/
theorem Gets.turn (he : PageOk e) {st : PState} (h : Rd bs hb e t (c :: cs)) (hn : cs.length + 1 < n) :
    Gets bs hb e (Parse.turn e' n st c) t (c :: cs) fun r p _ => ∀ act st', r = some (act, st') →
      ∃ k : Tok, k.Ok ∧ k.Text p ∧ k.next e' st = some (act, st') := by
  unfold Parse.turn
  split
  · subst c
    split
    · exact Gets.pure h fun _ _ h => nomatch h
    · rename_i hs
      refine Gets.skip he h fun t1 h1 => Gets.pure h1 fun act st' k => ?_
      cases k
      exact ⟨.at, trivial, rfl, if_pos (by grind)⟩
  split
  · subst c
    split
    · exact Gets.pure h fun _ _ h => nomatch h
    · rename_i hs
      refine Gets.skip he h fun t1 h1 => Gets.chr he h1 fun t2 h2 => ?_
      split
      · rename_i hc
        cases cs with
        | nil => simp [first] at hc
        | cons x cs =>
          cases (show x = 47 from hc)
          refine Gets.skip he h2 fun t3 h3 => Gets.pure h3 fun act st' k => ?_
          cases k
          exact ⟨.slash true, trivial, rfl, if_pos (by grind)⟩
      · refine Gets.pure h2 fun act st' k => ?_
        cases k
        exact ⟨.slash false, trivial, rfl, if_pos (by grind)⟩
  split
  · subst c
    split
    · exact Gets.pure h fun _ _ h => nomatch h
    · rename_i hs
      have hst : st = .SelectStart ∨ st = .SelectTag ∨ st = .SelectTagId ∨ st = .SelectCondition := by grind
      refine Gets.skip he h fun t1 h1 => ?_
      refine (Gets.spaces (n := n) he h1 (by omega)).bind ?_
      rintro _ t2 b rest h2 rfl ⟨hb2, -⟩
      simp only [List.length_append] at hn
      refine Gets.chr he h2 fun t3 h3 => ?_
      have fin : ∀ (r : Option Act) (t4 : Parse.Src) (p4 rest4 : List UChar), Rd bs hb e t4 rest4 → rest = p4 ++ rest4 →
          (∀ act, r = some act → ∃ c : TCond, c.Ok ∧ (∀ b, Blanks b → c.Text ([91] ++ b ++ p4)) ∧ act = .call (c.call e')) →
          Gets bs hb e (Pure.pure (r.map (·, PState.SelectCondition)) : M Parse.Src _) t4 rest4 fun r' p' _ => ∀ act st', r' = some (act, st') →
            ∃ k : Tok, k.Ok ∧ k.Text (91 :: (b ++ (p4 ++ p'))) ∧ k.next e' st = some (act, st') := by
        intro r t4 p4 rest4 h4 hc4 hr
        refine Gets.pure h4 fun act st' k => ?_
        cases r with
        | none => cases k
        | some a =>
          cases k
          obtain ⟨c, k1, k2, rfl⟩ := hr _ rfl
          refine ⟨.cond c, k1, ?_, if_pos hst⟩
          rw [List.append_nil]
          exact k2 b hb2
      simp only
      split
      · rename_i hc
        cases rest with
        | nil => simp [first] at hc
        | cons x rest =>
          cases (show x = 64 from hc)
          exact (Gets.attributeCondition (e' := e') (n := n) he h3 (by simp at hn; omega)).bind fin
      · exact (Gets.rangeCondition (e' := e') (n := n) he h3 (by omega)).bind fin
  split
  · subst c
    split
    · exact Gets.pure h fun _ _ h => nomatch h
    · rename_i hs
      refine Gets.skip he h fun t1 h1 => ?_
      refine (Gets.spaces (n := n) he h1 (by omega)).bind ?_
      rintro _ t2 b rest h2 rfl ⟨hb2, -⟩
      refine Gets.chr he h2 fun t3 h3 => ?_
      split
      · exact Gets.pure h3 fun _ _ h => nomatch h
      · rename_i hc
        cases rest with
        | nil => simp [first] at hc
        | cons x rest =>
          cases (show x = 41 by simpa [first] using hc)
          refine Gets.skip he h3 fun t4 h4 => Gets.pure h4 fun act st' k => ?_
          cases k
          exact ⟨.content, trivial, ⟨b, hb2, by simp⟩, if_pos (by grind)⟩
  split
  · subst c
    split
    · exact Gets.pure h fun _ _ h => nomatch h
    · rename_i hs
      refine Gets.skip he h fun t1 h1 => ?_
      split
      · refine Gets.pure h1 fun act st' k => ?_
        subst st
        cases k
        exact ⟨.name .any, trivial, rfl, rfl⟩
      · rename_i hst
        refine Gets.pure h1 fun act st' k => ?_
        cases k
        refine ⟨.name .any, trivial, rfl, ?_⟩
        simp only [Tok.next, nameAct, nameNext, if_neg hst]
        exact if_pos (by grind)
  split
  · subst c
    split
    · exact Gets.pure h fun _ _ h => nomatch h
    · rename_i hs
      refine (Gets.identifierList (e' := e') he h (by omega)).bind ?_
      rintro r t1 p1 rest1 h1 hc1 hr
      cases r with
      | none => exact Gets.pure h1 fun _ _ h => nomatch h
      | some l =>
        obtain ⟨ids, k1, k2, rfl⟩ := hr l rfl
        simp only
        split
        · refine Gets.pure h1 fun act st' k => ?_
          subst st
          cases k
          exact ⟨.name (.alt ids), k1, by rw [List.append_nil]; exact k2, rfl⟩
        · rename_i hst
          refine Gets.pure h1 fun act st' k => ?_
          cases k
          refine ⟨.name (.alt ids), k1, by rw [List.append_nil]; exact k2, ?_⟩
          simp only [Tok.next, nameAct, nameNext, if_neg hst]
          exact if_pos (by grind)
  split
  · subst c
    split
    · exact Gets.pure h fun _ _ h => nomatch h
    · rename_i hs
      refine Gets.skip he h fun t1 h1 => Gets.pure h1 fun act st' k => ?_
      cases k
      exact ⟨.close, trivial, rfl, if_pos (by grind)⟩
  split
  · exact Gets.pure h fun _ _ h => nomatch h
  · rename_i hs
    refine Gets.isIdentifierChar he h fun t1 h1 => ?_
    split
    · rename_i hi
      refine (Gets.parseIdentifier (e' := e') he h1 hn).bind ?_
      rintro _ t2 p2 rest2 h2 hc2 ⟨rfl, -, -, hid⟩
      replace hid := hid hi
      split
      · refine Gets.pure h2 fun act st' k => ?_
        subst st
        cases k
        exact ⟨.name (.one p2), hid, by rw [List.append_nil]; rfl, rfl⟩
      · rename_i hst
        refine Gets.pure h2 fun act st' k => ?_
        cases k
        refine ⟨.name (.one p2), hid, by rw [List.append_nil]; rfl, ?_⟩
        simp only [Tok.next, nameAct, nameNext, if_neg hst]
        exact if_pos (by grind)
    · exact Gets.pure h1 fun _ _ h => nomatch h

/-- The calls of pieces without the assignment of a type; the path elements are given up. -/
def triedActs (e' : Enc) (n : Nat) (acts : List Act) (ps : List PElem) : M Atm Unit := do
  let _ ← acts.foldlM (fun ps x => x.run e' n ps) ps
  pure ()

/-- The pieces at the begin of a text are taken; the expression is accepted at the end of the text and rejected anywhere else. -/
theorem loop_reads (he : PageOk e) (hl : bs.length + 8 < 2 ^ 32) {type : Int} : ∀ (m : Nat) (st : PState) (ps : List PElem) (t : Parse.Src) (a : Atm)
    (cs : List UChar), Rd bs hb e t cs → cs.length < m → cs.length < n →
    ∃ toks acts cs1 cs2, cs = cs1 ++ cs2 ∧ Texts toks cs1 ∧ (∀ k ∈ toks, k.Ok) ∧ runToks e' st toks = some acts ∧
      ∃ t', (cs2 = [] ∧ Parser.loop e' n type m st ps { src := t, atm := a } =
          ((parsed (runActs e' n type acts ps a)).1, { src := t', atm := (parsed (runActs e' n type acts ps a)).2 })) ∨
        (cs2 ≠ [] ∧ ∃ p rest, cs2 = p ++ rest ∧ Parser.loop e' n type m st ps { src := t, atm := a } =
          match triedActs e' n acts ps a with
          | (.ok _, a') => (.ok (bs.length - (rest.flatMap e.print).length + 1), { src := t', atm := a' })
          | (.stop er, a') => (.stop er, { src := t', atm := a' })) := by
  intro m
  induction m with
  | zero => intro st ps t a cs _ h; omega
  | succ m ih =>
    intro st ps t a cs h hm hn
    unfold Parser.loop
    obtain ⟨t1, h1, h2⟩ := h.chr he
    cases cs with
    | nil =>
      refine ⟨[], [], [], [], rfl, rfl, by simp, rfl, t1, .inl ⟨rfl, ?_⟩⟩
      rw [M.bind_ok (onSrc_ok h1), if_pos (show first [] = 0 from rfl)]
      rcases hf : forEach e' n (.assign type) ps a with ⟨r, a'⟩
      cases r with
      | ok v =>
        rw [M.bind_ok (onAtm_run hf), show runActs e' n type [] ps a = (.ok (), a') from M.bind_ok hf]
        rfl
      | stop er =>
        rw [M.bind_stop (onAtm_run hf), show runActs e' n type [] ps a = (.stop er, a') from M.bind_stop hf]
        rfl
    | cons c cs =>
      rw [M.bind_ok (onSrc_ok h1), first_cons, if_neg (h.plain c (by simp))]
      obtain ⟨r, t2, p, rest, k1, k2, k3, k4⟩ := Gets.turn (e' := e') (n := n) (st := st) he h2 (by simpa using hn)
      rw [M.bind_ok (onSrc_ok k1)]
      cases r with
      | none =>
        refine ⟨[], [], [], c :: cs, rfl, rfl, by simp, rfl, t2, .inr ⟨by simp, p, rest, k3, ?_⟩⟩
        show (Res.ok (t2.getPosition + 1), _) = _
        rw [k2.position hl]
        rfl
      | some x =>
        obtain ⟨act, st'⟩ := x
        obtain ⟨k, hk, hkt, hkn⟩ := k4 act st' rfl
        have hp : p ≠ [] := (hk.starts p hkt).1
        have hlen : rest.length < (c :: cs).length := by
          rw [k3, List.length_append]
          have := List.length_pos_iff.2 hp
          omega
        obtain ⟨u, t3, b, rest', g1, g2, rfl, hb3, -⟩ := Gets.spaces (n := n) he k2 (by omega)
        simp only [List.length_append] at hlen
        simp only []
        rcases hf : act.run e' n ps a with ⟨r, a'⟩
        cases r with
        | ok v =>
          obtain ⟨toks, acts, cs1, cs2, rfl, i1, i2, i3, t4, i4⟩ := ih st' v t3 a' rest' g2 (by omega) (by omega)
          refine ⟨k :: toks, act :: acts, p ++ b ++ cs1, cs2, by rw [k3]; simp, ⟨p, b, cs1, hkt, hb3, rfl, i1⟩, by simpa [hk] using i2, ?_, t4, ?_⟩
          · unfold runToks
            rw [hkn]
            simp only [i3]
            rfl
          · rw [M.bind_ok (onAtm_run hf), M.bind_ok (onSrc_ok g1)]
            rcases i4 with ⟨rfl, i4⟩ | ⟨i5, p', rest', i6, i4⟩
            · refine .inl ⟨rfl, ?_⟩
              rw [i4, show runActs e' n type (act :: acts) ps a = runActs e' n type acts v a' from M.bind_ok hf]
            · refine .inr ⟨i5, p', rest', i6, ?_⟩
              rw [i4]
              have : triedActs e' n (act :: acts) ps a = triedActs e' n acts v a' := by
                have hx : (act :: acts).foldlM (fun ps x => x.run e' n ps) ps a = acts.foldlM (fun ps x => x.run e' n ps) v a' := M.bind_ok hf
                unfold triedActs
                rw [M.bind_run, M.bind_run, hx]
              rw [this]
        | stop er =>
          have hx : triedActs e' n [act] ps a = (.stop er, a') := by
            have : [act].foldlM (fun ps x => x.run e' n ps) ps a = (.stop er, a') := M.bind_stop hf
            exact M.bind_stop this
          refine ⟨[k], [act], p ++ b, rest', by rw [k3]; simp, ⟨p, b, [], hkt, hb3, by simp, rfl⟩, by simpa using hk, ?_, t2, ?_⟩
          · unfold runToks
            rw [hkn]
            rfl
          · rw [M.bind_stop (onAtm_run hf)]
            cases rest' with
            | nil =>
              refine .inl ⟨rfl, ?_⟩
              rw [show runActs e' n type [act] ps a = (.stop er, a') from M.bind_stop hf]
              rfl
            | cons x r =>
              refine .inr ⟨by simp, [], x :: r, rfl, ?_⟩
              rw [hx]

/-! ## From pieces to expressions -/

theorem runToks_cons {st : PState} {k : Tok} {ks : List Tok} {acts : List Act} (h : runToks e' st (k :: ks) = some acts) :
    ∃ act st' acts', k.next e' st = some (act, st') ∧ runToks e' st' ks = some acts' ∧ acts = act :: acts' := by
  unfold runToks at h
  cases hk : k.next e' st with
  | none => rw [hk] at h; cases h
  | some x =>
    rw [hk] at h
    simp only [Option.map_eq_some_iff] at h
    obtain ⟨acts', h1, rfl⟩ := h
    exact ⟨x.1, x.2, acts', rfl, h1, rfl⟩

theorem toks_last {ks : List Tok} {acts : List Act} {st : PState} (hs : st = .SelectAttributeId ∨ st = .SelectContent)
    (h : runToks e' st ks = some acts) : ks = [] := by
  cases ks with
  | nil => rfl
  | cons k ks =>
    obtain ⟨act, st', acts', h1, -⟩ := runToks_cons h
    rcases hs with rfl | rfl <;> cases k <;> simp [Tok.next] at h1

theorem toks_attribute {ks : List Tok} {acts : List Act} (hk : ∀ k ∈ ks, k.Ok) (h : runToks e' .SelectAttribute ks = some acts) :
    ∃ name : Option TName, ks = name.toList.map .name ∧ ∀ nm, name = some nm → nm.Ok := by
  cases ks with
  | nil => exact ⟨none, rfl, by simp⟩
  | cons k ks =>
    obtain ⟨act, st', acts', h1, h2, -⟩ := runToks_cons h
    cases k with
    | name nm =>
      simp only [Tok.next, or_true, if_true, Option.some.injEq, Prod.mk.injEq] at h1
      obtain ⟨-, rfl⟩ := h1
      cases toks_last (.inl rfl) h2
      exact ⟨some nm, rfl, by rintro _ ⟨⟩; exact hk (.name nm) (by simp)⟩
    | _ => simp [Tok.next] at h1

/-- Every step has a separator. -/
def Separated (p : TPath) : Prop := ∀ s ∈ p.steps, s.sep ≠ none

theorem toks_path (ks : List Tok) (hk : ∀ k ∈ ks, k.Ok) :
    (∀ st acts, st = .SelectTagId ∨ st = .SelectCondition → runToks e' st ks = some acts →
      ∃ (conds : List TCond) (p : TPath), ks = conds.map .cond ++ p.toks ∧ (∀ c ∈ conds, c.Ok) ∧ p.Ok ∧ Separated p) ∧
    (∀ acts d, runToks e' .SelectTag ks = some acts → ∃ p : TPath, p.toks = .slash d :: ks ∧ p.Ok ∧ Separated p) := by
  have final : ∀ f : TEnd, f.Ok → (⟨[], f⟩ : TPath).Ok := fun f h => ⟨by simp, by simp, h⟩
  have sepd : ∀ f : TEnd, Separated ⟨[], f⟩ := fun f => by simp [Separated]
  have cons : ∀ (s : TStep) (p : TPath), s.Ok → p.Ok → Separated p → (⟨s :: p.steps, p.final⟩ : TPath).Ok ∧
      (⟨s :: p.steps, p.final⟩ : TPath).toks = s.toks ++ p.toks ∧ (s.sep ≠ none → Separated ⟨s :: p.steps, p.final⟩) := by
    refine fun s p h1 h2 h3 => ⟨⟨by simpa [h1] using h2.1, h3, h2.2.2⟩, by simp [TPath.toks], fun h4 => ?_⟩
    intro x hx
    rcases List.mem_cons.1 hx with rfl | hx
    · exact h4
    · exact h3 x hx
  induction ks with
  | nil =>
    refine ⟨fun st acts _ _ => ⟨[], ⟨[], .nothing⟩, rfl, by simp, final _ trivial, sepd _⟩, fun acts d _ => ?_⟩
    exact ⟨⟨[], .slash d⟩, rfl, final _ trivial, sepd _⟩
  | cons k ks ih =>
    obtain ⟨ih1, ih2⟩ := ih fun k h => hk k (by simp [h])
    have hk0 := hk k (by simp)
    have hks : ∀ k ∈ ks, k.Ok := fun k h => hk k (by simp [h])
    refine ⟨fun st acts hs h => ?_, fun acts d h => ?_⟩
    · obtain ⟨act, st', acts', h1, h2, -⟩ := runToks_cons h
      cases k with
      | name nm => rcases hs with rfl | rfl <;> simp [Tok.next] at h1
      | slash d =>
        have : st' = .SelectTag := by rcases hs with rfl | rfl <;> simp [Tok.next] at h1 <;> exact h1.2.symm
        subst this
        obtain ⟨p, k1, k2, k3⟩ := ih2 _ d h2
        exact ⟨[], p, by simp [k1], by simp, k2, k3⟩
      | cond c =>
        have : st' = .SelectCondition := by rcases hs with rfl | rfl <;> simp [Tok.next] at h1 <;> exact h1.2.symm
        subst this
        obtain ⟨conds, p, rfl, k2, k3⟩ := ih1 _ _ (.inr rfl) h2
        exact ⟨c :: conds, p, by simp, by simpa [show c.Ok from hk0] using k2, k3⟩
      | «at» =>
        have : st' = .SelectAttribute := by rcases hs with rfl | rfl <;> simp [Tok.next] at h1 <;> exact h1.2.symm
        subst this
        obtain ⟨name, rfl, k1⟩ := toks_attribute hks h2
        exact ⟨[], ⟨[], .attribute none name⟩, by simp [TPath.toks, TEnd.toks, sepToks], by simp, final _ k1, sepd _⟩
      | content =>
        have : st' = .SelectContent := by rcases hs with rfl | rfl <;> simp [Tok.next] at h1 <;> exact h1.2.symm
        subst this
        cases toks_last (.inr rfl) h2
        exact ⟨[], ⟨[], .content none⟩, rfl, by simp, final _ trivial, sepd _⟩
      | close =>
        have : st' = .SelectContent := by rcases hs with rfl | rfl <;> simp [Tok.next] at h1 <;> exact h1.2.symm
        subst this
        cases toks_last (.inr rfl) h2
        exact ⟨[], ⟨[], .closeTag⟩, rfl, by simp, final _ trivial, sepd _⟩
    · obtain ⟨act, st', acts', h1, h2, -⟩ := runToks_cons h
      cases k with
      | name nm =>
        simp [Tok.next, nameNext] at h1
        obtain ⟨-, rfl⟩ := h1
        obtain ⟨conds, p, rfl, k2, k3, k4⟩ := ih1 _ _ (.inl rfl) h2
        obtain ⟨c1, c2, c3⟩ := cons ⟨some d, some nm, conds⟩ p ⟨by rintro _ ⟨⟩; exact hk0, k2, by simp⟩ k3 k4
        exact ⟨_, by rw [c2]; simp [TStep.toks, sepToks], c1, c3 (by simp)⟩
      | cond c =>
        simp [Tok.next] at h1
        obtain ⟨-, rfl⟩ := h1
        obtain ⟨conds, p, rfl, k2, k3, k4⟩ := ih1 _ _ (.inr rfl) h2
        obtain ⟨c1, c2, c3⟩ := cons ⟨some d, none, c :: conds⟩ p ⟨by simp, by simpa [show c.Ok from hk0] using k2, by simp⟩ k3 k4
        exact ⟨_, by rw [c2]; simp [TStep.toks, sepToks], c1, c3 (by simp)⟩
      | «at» =>
        simp [Tok.next] at h1
        obtain ⟨-, rfl⟩ := h1
        obtain ⟨name, rfl, k1⟩ := toks_attribute hks h2
        exact ⟨⟨[], .attribute (some d) name⟩, by simp [TPath.toks, TEnd.toks, sepToks], final _ k1, sepd _⟩
      | content =>
        simp [Tok.next] at h1
        obtain ⟨-, rfl⟩ := h1
        cases toks_last (.inr rfl) h2
        exact ⟨⟨[], .content (some d)⟩, rfl, final _ trivial, sepd _⟩
      | slash _ => simp [Tok.next] at h1
      | close => simp [Tok.next] at h1

/-- The pieces the parser takes are those of an expression. -/
theorem toks_start {ks : List Tok} (hk : ∀ k ∈ ks, k.Ok) {acts : List Act} (h : runToks e' .SelectStart ks = some acts) :
    ∃ p : TPath, p.Ok ∧ p.toks = ks := by
  have final : ∀ f : TEnd, f.Ok → (⟨[], f⟩ : TPath).Ok := fun f h => ⟨by simp, by simp, h⟩
  cases ks with
  | nil => exact ⟨⟨[], .nothing⟩, final _ trivial, rfl⟩
  | cons k ks =>
    obtain ⟨act, st', acts', h1, h2, -⟩ := runToks_cons h
    have hk0 := hk k (by simp)
    have hks : ∀ k ∈ ks, k.Ok := fun k h => hk k (by simp [h])
    obtain ⟨p1, p2⟩ := toks_path (e' := e') ks hks
    cases k with
    | name nm =>
      simp [Tok.next, nameNext] at h1
      obtain ⟨-, rfl⟩ := h1
      obtain ⟨conds, p, rfl, k2, k3, k4⟩ := p1 _ _ (.inl rfl) h2
      refine ⟨⟨⟨none, some nm, conds⟩ :: p.steps, p.final⟩, ⟨?_, k4, k3.2.2⟩, by simp [TPath.toks, TStep.toks, sepToks]⟩
      intro s hs
      rcases List.mem_cons.1 hs with rfl | hs
      · exact ⟨by rintro _ ⟨⟩; exact hk0, k2, by simp⟩
      · exact k3.1 s hs
    | cond c =>
      simp [Tok.next] at h1
      obtain ⟨-, rfl⟩ := h1
      obtain ⟨conds, p, rfl, k2, k3, k4⟩ := p1 _ _ (.inr rfl) h2
      refine ⟨⟨⟨none, none, c :: conds⟩ :: p.steps, p.final⟩, ⟨?_, k4, k3.2.2⟩, by simp [TPath.toks, TStep.toks, sepToks]⟩
      intro s hs
      rcases List.mem_cons.1 hs with rfl | hs
      · exact ⟨by simp, by simpa [show c.Ok from hk0] using k2, by simp⟩
      · exact k3.1 s hs
    | slash d =>
      simp [Tok.next] at h1
      obtain ⟨-, rfl⟩ := h1
      obtain ⟨p, k1, k2, -⟩ := p2 _ d h2
      exact ⟨p, k2, k1⟩
    | «at» =>
      simp [Tok.next] at h1
      obtain ⟨-, rfl⟩ := h1
      obtain ⟨name, rfl, k1⟩ := toks_attribute hks h2
      exact ⟨⟨[], .attribute none name⟩, final _ k1, by simp [TPath.toks, TEnd.toks, sepToks]⟩
    | content =>
      simp [Tok.next] at h1
      obtain ⟨-, rfl⟩ := h1
      cases toks_last (.inr rfl) h2
      exact ⟨⟨[], .content none⟩, final _ trivial, rfl⟩
    | close =>
      simp [Tok.next] at h1
      obtain ⟨-, rfl⟩ := h1
      cases toks_last (.inr rfl) h2
      exact ⟨⟨[], .closeTag⟩, final _ trivial, rfl⟩

end TW
