import Verif.Model.PathParse
import Verif.Spec.PathText
import Verif.Proofs.PathNames

/-!
# The parser of path expressions reads texts
-/

namespace TW

open Spec Spec.Path TW.Path

/-- The characters a source can have. -/
def Plain (e : Enc) (c : UChar) : Prop := c ≠ 0 ∧ c < 2 ^ 32 ∧ Direct e c

/-- The scanner is before the characters `cs`, the last ones of the source, and behind them are null bytes. -/
def Rd (bs : List Byte) (hb : ∀ b ∈ bs, b < 256) (e : Enc) (t : Parse.Src) (cs : List UChar) : Prop :=
  ∃ k ld, TRel (cstrSource bs hb) e t ⟨k, ld⟩ ∧ At (cyc bs) k (cs.flatMap e.print) ∧ (∀ c ∈ cs, Plain e c) ∧
    (∀ j, k + (cs.flatMap e.print).length ≤ j → j < k + (cs.flatMap e.print).length + 4 → cyc bs j = 0) ∧
    k + (cs.flatMap e.print).length = bs.length

variable {bs : List Byte} {hb : ∀ b ∈ bs, b < 256} {e : Enc} {t : Parse.Src} {c : UChar} {cs : List UChar}

theorem avail_all (k n : Nat) : Avail (cstrSource bs hb) k n := fun _ _ _ => ⟨trivial, trivial⟩

/-- The first character, or null at the end. -/
def first : List UChar → UChar
  | [] => 0
  | c :: _ => c

theorem first_cons (c : UChar) (cs : List UChar) : first (c :: cs) = c := rfl

/-- The byte classified. -/
def ascOf : List UChar → Byte
  | [] => 0
  | c :: _ => if c < 128 then c else 255

theorem Rd.facts (he : PageOk e) {k : Nat} (ha : At (cyc bs) k (cs.flatMap e.print)) (hc : ∀ c ∈ cs, Plain e c)
    (hz : ∀ j, k + (cs.flatMap e.print).length ≤ j → j < k + (cs.flatMap e.print).length + 4 → cyc bs j = 0) :
    uval e (cyc bs) k = first cs ∧ uasc e (cyc bs) k = ascOf cs := by
  cases cs with
  | nil => exact uval_zero e _ k (by simpa using hz)
  | cons c cs =>
    rw [List.flatMap_cons, At_append] at ha
    obtain ⟨h1, h2, h3⟩ := hc c (by simp)
    exact ⟨(direct_dec e he c h2 h3 _ k ha.1).2, direct_asc e he c h2 h1 h3 _ k ha.1⟩

theorem Rd.chr (he : PageOk e) (h : Rd bs hb e t cs) : ∃ t', TextScanner.chr t = (.ok (first cs), t') ∧ Rd bs hb e t' cs := by
  obtain ⟨k, ld, h1, h2, h3, h4⟩ := h
  obtain ⟨t', h5, h6⟩ := h1.chr_ok (avail_all _ _)
  exact ⟨t', by rw [h5, (Rd.facts he h2 h3 h4.1).1], k, _, h6, h2, h3, h4⟩

theorem Rd.control (he : PageOk e) (h : Rd bs hb e t cs) :
    ∃ t', TextScanner.control t = (.ok (controlCharMap (ascOf cs)), t') ∧ Rd bs hb e t' cs := by
  obtain ⟨k, ld, h1, h2, h3, h4⟩ := h
  obtain ⟨t', h5, h6⟩ := h1.control_ok (avail_all _ _)
  exact ⟨t', by rw [h5, (Rd.facts he h2 h3 h4.1).2], k, _, h6, h2, h3, h4⟩

theorem Rd.skip (he : PageOk e) (h : Rd bs hb e t (c :: cs)) : ∃ t', TextScanner.skip t = (.ok (), t') ∧ Rd bs hb e t' cs := by
  obtain ⟨k, ld, h1, h2, h3, h4⟩ := h
  obtain ⟨t', h5, h6⟩ := h1.skip_ok (avail_all _ _)
  rw [List.flatMap_cons, At_append] at h2
  obtain ⟨c1, c2, c3⟩ := h3 c (by simp)
  rw [(direct_dec e he c c2 c3 _ k h2.1).1] at h6
  rw [List.flatMap_cons, List.length_append] at h4
  refine ⟨t', h5, _, _, h6, h2.2, fun x hx => h3 x (by simp [hx]), ?_, by omega⟩
  intro j j1 j2
  exact h4.1 j (by omega) (by omega)

/-- The position of the scanner. -/
theorem Rd.position (h : Rd bs hb e t cs) (hl : bs.length + 8 < 2 ^ 32) : t.getPosition = bs.length - (cs.flatMap e.print).length := by
  obtain ⟨k, ld, h1, -, -, -, h5⟩ := h
  rw [h1.getPosition (by show k + 8 < 2 ^ 32; omega)]
  show k = _
  omega

/-- The rest of the text does not begin with a blank. -/
def NoBlank (cs : List UChar) : Prop := controlCharMap (ascOf cs) ≠ .Space


theorem Rd.skipSpaces (he : PageOk e) (n : Nat) : ∀ (t : Parse.Src) (bl : List UChar), Rd bs hb e t (bl ++ cs) → Blanks bl →
    NoBlank cs → bl.length < n → ∃ t', Parse.skipSpaces n t = (.ok (), t') ∧ Rd bs hb e t' cs := by
  induction n with
  | zero => intro t bl _ _ _ h; omega
  | succ n ih =>
    intro t bl h hbl hn hl
    cases bl with
    | nil =>
      obtain ⟨t', h1, h2⟩ := h.control he
      refine ⟨t', ?_, h2⟩
      unfold Parse.skipSpaces
      rw [M.bind_ok h1, List.nil_append, if_neg hn]
      rfl
    | cons b bl =>
      obtain ⟨t1, h1, h2⟩ := h.control he
      obtain ⟨t2, h3, h4⟩ := h2.skip he
      obtain ⟨t3, h5, h6⟩ := ih t2 bl h4 (fun c hc => hbl c (by simp [hc])) hn (by simp at hl; omega)
      refine ⟨t3, ?_, h6⟩
      unfold Parse.skipSpaces
      rw [M.bind_ok h1, if_pos, M.bind_ok h3, h5]
      show controlCharMap (ascOf [b]) = .Space
      rcases hbl b (by simp) with rfl | rfl | rfl <;> decide

/-- The rest of the text begins with a character of an identifier. -/
def isId (cs : List UChar) : Bool :=
  (controlCharMap (ascOf cs) = .Undef ∨ controlCharMap (ascOf cs) = .Any) && !Parse.isOpChar (first cs)

theorem Rd.isIdentifierChar (he : PageOk e) (h : Rd bs hb e t cs) :
    ∃ t', Parse.isIdentifierChar t = (.ok (isId cs), t') ∧ Rd bs hb e t' cs := by
  obtain ⟨t1, h1, h2⟩ := h.control he
  unfold Parse.isIdentifierChar
  by_cases hc : controlCharMap (ascOf cs) = .Undef ∨ controlCharMap (ascOf cs) = .Any
  · obtain ⟨t2, h3, h4⟩ := h2.chr he
    refine ⟨t2, ?_, h4⟩
    rw [M.bind_ok h1, if_pos hc, M.bind_ok h3]
    simp [isId, hc]
  · refine ⟨t1, ?_, h2⟩
    rw [M.bind_ok h1, if_neg hc]
    simp [isId, hc]

theorem isId_ascii : ∀ c, c < 128 → (isId [c] = true ↔ (33 ≤ c ∨ c = 5) ∧ c ∉ ascii "!\"&'()*,-/;<=>?@[]{}~") := by
  have : ∀ c : Fin 128, (isId [c.1] = true ↔ (33 ≤ c.1 ∨ c.1 = 5) ∧ c.1 ∉ ascii "!\"&'()*,-/;<=>?@[]{}~") := by decide +kernel
  exact fun c hc => this ⟨c, hc⟩

theorem isId_cons (c : UChar) (cs : List UChar) : isId (c :: cs) = isId [c] := rfl

theorem Spec.Path.IdChar.isId (h : IdChar c) (cs : List UChar) : isId (c :: cs) = true := by
  rw [isId_cons]
  by_cases hc : c < 128
  · exact (isId_ascii c hc).2 ⟨h.1, h.2.1⟩
  · have h2 := h.2.2 (by omega)
    have ha : ascOf [c] = 255 := by simp [ascOf, hc]
    have : Parse.isOpChar c = false := by
      unfold Parse.isOpChar
      rw [List.contains_eq_mem, decide_eq_false_iff_not, List.mem_append]
      rintro (h | h)
      · exact h2.2 h
      · simp at h; exact h2.1 h
    simp only [TW.isId, ha, first, this]
    decide

theorem Rd.parseIdentifier {e' : Enc} (he : PageOk e) (id : List UChar) : ∀ (n : Nat) (t : Parse.Src), Rd bs hb e t (id ++ cs) →
    (∀ c ∈ id, IdChar c) → isId cs = false → id.length < n →
    ∃ t', Parse.parseIdentifier e' n t = (.ok (id.flatMap e'.print), t') ∧ Rd bs hb e t' cs := by
  induction id with
  | nil =>
    intro n t h _ hn hl
    obtain ⟨n, rfl⟩ : ∃ m, n = m + 1 := ⟨n - 1, by simp at hl; omega⟩
    obtain ⟨t', h1, h2⟩ := h.isIdentifierChar he
    refine ⟨t', ?_, h2⟩
    unfold Parse.parseIdentifier
    rw [M.bind_ok h1]
    simp only [List.nil_append, hn]
    rfl
  | cons c id ih =>
    intro n t h hi hn hl
    obtain ⟨n, rfl⟩ : ∃ m, n = m + 1 := ⟨n - 1, by simp at hl; omega⟩
    obtain ⟨t1, h1, h2⟩ := h.isIdentifierChar he
    obtain ⟨t2, h3, h4⟩ := h2.chr he
    obtain ⟨t3, h5, h6⟩ := h4.skip he
    obtain ⟨t4, h7, h8⟩ := ih n t3 h6 (fun c hc => hi c (by simp [hc])) hn (by simp at hl; omega)
    refine ⟨t4, ?_, h8⟩
    unfold Parse.parseIdentifier
    rw [M.bind_ok h1, List.cons_append, IdChar.isId (hi c (by simp)), if_pos rfl, M.bind_ok h3, M.bind_ok h5, M.bind_ok h7]
    rfl

theorem Rd.digits (he : PageOk e) (ds : List UChar) : ∀ (n : Nat) (t : Parse.Src), Rd bs hb e t (ds ++ cs) →
    (∀ d ∈ ds, 48 ≤ d ∧ d ≤ 57) → ¬ (48 ≤ first cs ∧ first cs ≤ 57) → ds.length < n →
    ∃ t', Parse.digits n t = (.ok ds, t') ∧ Rd bs hb e t' cs := by
  induction ds with
  | nil =>
    intro n t h _ hn hl
    obtain ⟨n, rfl⟩ : ∃ m, n = m + 1 := ⟨n - 1, by simp at hl; omega⟩
    obtain ⟨t', h1, h2⟩ := h.chr he
    refine ⟨t', ?_, h2⟩
    unfold Parse.digits
    rw [M.bind_ok h1, List.nil_append, if_neg hn]
    rfl
  | cons c id ih =>
    intro n t h hi hn hl
    obtain ⟨n, rfl⟩ : ∃ m, n = m + 1 := ⟨n - 1, by simp at hl; omega⟩
    obtain ⟨t2, h3, h4⟩ := h.chr he
    obtain ⟨t3, h5, h6⟩ := h4.skip he
    obtain ⟨t4, h7, h8⟩ := ih n t3 h6 (fun c hc => hi c (by simp [hc])) hn (by simp at hl; omega)
    refine ⟨t4, ?_, h8⟩
    unfold Parse.digits
    rw [M.bind_ok h3, List.cons_append, first_cons, if_pos (hi c (by simp)), M.bind_ok h5, M.bind_ok h7]
    rfl

theorem Rd.parseNum (he : PageOk e) {ds : List UChar} (hd : Number ds) {n : Nat} (h : Rd bs hb e t (ds ++ cs))
    (hn : ¬ (48 ≤ first cs ∧ first cs ≤ 57)) (hl : ds.length < n) :
    ∃ t', Parse.parseNum n t = (.ok (some (decimal ds)), t') ∧ Rd bs hb e t' cs := by
  obtain ⟨t', h1, h2⟩ := Rd.digits he ds n t h hd.2.2 hn hl
  refine ⟨t', ?_, h2⟩
  unfold Parse.parseNum
  rw [M.bind_ok h1, if_neg]
  · rfl
  · have := List.length_pos_iff.2 hd.1
    have := hd.2.1
    omega

theorem Spec.Path.Number.isId {ds : List UChar} (h : Number ds) (cs : List UChar) : isId (ds ++ cs) = true := by
  obtain ⟨h1, h2, h3⟩ := h
  cases ds with
  | nil => exact (h1 rfl).elim
  | cons d ds =>
    rw [List.cons_append, isId_cons]
    have hd := h3 d (by simp)
    refine (isId_ascii d (by omega)).2 ⟨by omega, ?_⟩
    have : ∀ d : Fin 58, 48 ≤ d.1 → d.1 ∉ ascii "!\"&'()*,-/;<=>?@[]{}~" := by decide +kernel
    exact this ⟨d, by omega⟩ hd.1

theorem Rd.quoted {e' : Enc} (he : PageOk e) {q : UChar} (id : List UChar) : ∀ (n : Nat) (t : Parse.Src), Rd bs hb e t (id ++ q :: cs) →
    (∀ c ∈ id, c ≠ 0 ∧ c ≠ q) → id.length < n →
    ∃ t', Parse.quoted e' q n t = (.ok (id.flatMap e'.print), t') ∧ Rd bs hb e t' (q :: cs) := by
  induction id with
  | nil =>
    intro n t h _ hl
    obtain ⟨n, rfl⟩ : ∃ m, n = m + 1 := ⟨n - 1, by simp at hl; omega⟩
    obtain ⟨t', h1, h2⟩ := h.chr he
    refine ⟨t', ?_, h2⟩
    unfold Parse.quoted
    rw [M.bind_ok h1, if_neg (by simp [first])]
    rfl
  | cons c id ih =>
    intro n t h hi hl
    obtain ⟨n, rfl⟩ : ∃ m, n = m + 1 := ⟨n - 1, by simp at hl; omega⟩
    obtain ⟨t2, h3, h4⟩ := h.chr he
    obtain ⟨t3, h5, h6⟩ := h4.skip he
    obtain ⟨t4, h7, h8⟩ := ih n t3 h6 (fun c hc => hi c (by simp [hc])) (by simp at hl; omega)
    refine ⟨t4, ?_, h8⟩
    unfold Parse.quoted
    rw [M.bind_ok h3, List.cons_append, first_cons, if_pos (hi c (by simp)), M.bind_ok h5, M.bind_ok h7]
    rfl

theorem Spec.Path.Identifier.isId {cs : List UChar} (h : Identifier cs) (r : List UChar) : isId (cs ++ r) = true := by
  obtain ⟨h1, h2⟩ := h
  cases cs with
  | nil => exact (h1 rfl).elim
  | cons c cs => exact IdChar.isId (h2 c (by simp)) _

theorem Spec.Path.Identifier.first {cs : List UChar} (h : Identifier cs) (r : List UChar) : IdChar (first (cs ++ r)) := by
  obtain ⟨h1, h2⟩ := h
  cases cs with
  | nil => exact (h1 rfl).elim
  | cons c cs => exact h2 c (by simp)

/-- A value is read up to a character that is none of an identifier. -/
theorem Rd.parseValue {e' : Enc} (he : PageOk e) {v : TValue} (hv : v.Ok) {n : Nat} (h : Rd bs hb e t (v.text ++ cs))
    (hn : isId cs = false) (hl : v.text.length < n) :
    ∃ t', Parse.parseValue e' n t = (.ok (some (v.chars.flatMap e'.print)), t') ∧ Rd bs hb e t' cs := by
  obtain ⟨t1, h1, h2⟩ := h.chr he
  unfold Parse.parseValue
  cases v with
  | bare id =>
    have h3 : ¬ (TW.first (id ++ cs) = 34 ∨ TW.first (id ++ cs) = 39) := by
      have := (Identifier.first hv cs).2.1
      rintro (h | h) <;> rw [h] at this <;> exact this (by decide)
    obtain ⟨t2, h4, h5⟩ := h2.isIdentifierChar he
    obtain ⟨t3, h6, h7⟩ := Rd.parseIdentifier (e' := e') he id n t2 h5 hv.2 hn (by simpa [TValue.text] using hl)
    refine ⟨t3, ?_, h7⟩
    change TextScanner.chr t = (.ok (TW.first (id ++ cs)), t1) at h1
    simp only [TValue.text] at h4
    rw [M.bind_ok h1, if_neg h3, M.bind_ok h4, Identifier.isId hv, if_pos rfl, M.bind_ok h6]
    rfl
  | quoted q id =>
    obtain ⟨hq, hi⟩ := hv
    have hz : q ≠ 0 := by rcases hq with rfl | rfl <;> decide
    simp only [TValue.text, List.cons_append, List.append_assoc] at h2 hl
    obtain ⟨t2, h3, h4⟩ := h2.skip he
    obtain ⟨t3, h5, h6⟩ := Rd.quoted (e' := e') he id n t2 (by simpa using h4) hi (by simp at hl; omega)
    obtain ⟨t4, h7, h8⟩ := h6.chr he
    obtain ⟨t5, h9, h10⟩ := h8.skip he
    refine ⟨t5, ?_, h10⟩
    change TextScanner.chr t = (.ok q, t1) at h1
    change TextScanner.chr t3 = (.ok q, t4) at h7
    rw [M.bind_ok h1, if_pos hq, M.bind_ok h3, M.bind_ok h5, M.bind_ok h7, if_pos hz, M.bind_ok h9]
    rfl


/-! ## Turns of the loop -/

theorem Rd.at' (he : PageOk e) {e' : Enc} {n : Nat} {st : PState} (hs : st = .SelectStart ∨ st = .SelectTag ∨ st = .SelectTagId ∨ st = .SelectCondition)
    (h : Rd bs hb e t (64 :: cs)) :
    ∃ t', Parse.turn e' n st 64 t = (.ok (some (.none, .SelectAttribute)), t') ∧ Rd bs hb e t' cs := by
  obtain ⟨t1, h1, h2⟩ := h.skip he
  refine ⟨t1, ?_, h2⟩
  unfold Parse.turn
  rw [if_pos rfl, if_neg (by rcases hs with rfl | rfl | rfl | rfl <;> decide), M.bind_ok h1]
  rfl

theorem Rd.slash (he : PageOk e) {e' : Enc} {n : Nat} {st : PState} (hs : st = .SelectStart ∨ st = .SelectTagId ∨ st = .SelectCondition)
    (h : Rd bs hb e t (47 :: cs)) (hn : first cs ≠ 47) :
    ∃ t', Parse.turn e' n st 47 t = (.ok (some (.none, .SelectTag)), t') ∧ Rd bs hb e t' cs := by
  obtain ⟨t1, h1, h2⟩ := h.skip he
  obtain ⟨t2, h3, h4⟩ := h2.chr he
  refine ⟨t2, ?_, h4⟩
  unfold Parse.turn
  rw [if_neg (by decide), if_pos rfl, if_neg (by rcases hs with rfl | rfl | rfl <;> decide), M.bind_ok h1, M.bind_ok h3, if_neg hn]
  rfl

theorem Rd.slashes (he : PageOk e) {e' : Enc} {n : Nat} {st : PState} (hs : st = .SelectStart ∨ st = .SelectTagId ∨ st = .SelectCondition)
    (h : Rd bs hb e t (47 :: 47 :: cs)) :
    ∃ t', Parse.turn e' n st 47 t = (.ok (some (.call .follow, .SelectTag)), t') ∧ Rd bs hb e t' cs := by
  obtain ⟨t1, h1, h2⟩ := h.skip he
  obtain ⟨t2, h3, h4⟩ := h2.chr he
  obtain ⟨t3, h5, h6⟩ := h4.skip he
  refine ⟨t3, ?_, h6⟩
  unfold Parse.turn
  rw [if_neg (by decide), if_pos rfl, if_neg (by rcases hs with rfl | rfl | rfl <;> decide), M.bind_ok h1, M.bind_ok h3, first_cons, if_pos rfl,
    M.bind_ok h5]
  rfl

theorem Rd.spaces (he : PageOk e) {n : Nat} {bl : List UChar} (h : Rd bs hb e t (bl ++ cs)) (hb' : Blanks bl) (hc : NoBlank cs) (hn : bl.length < n) :
    ∃ t', Parse.skipSpaces n t = (.ok (), t') ∧ Rd bs hb e t' cs :=
  Rd.skipSpaces he n t bl h hb' hc hn

theorem Rd.noSpaces (he : PageOk e) {n : Nat} (hn : 0 < n) (h : Rd bs hb e t cs) (hc : NoBlank cs) :
    ∃ t', Parse.skipSpaces n t = (.ok (), t') ∧ Rd bs hb e t' cs :=
  Rd.skipSpaces he n t [] (by simpa using h) (by simp [Blanks]) hc (by simpa using hn)

theorem Spec.Path.Blanks.isId {bl : List UChar} (h : Blanks bl) (hc : isId cs = false) : isId (bl ++ cs) = false := by
  cases bl with
  | nil => exact hc
  | cons c bl =>
    rw [List.cons_append, isId_cons]
    rcases h c (by simp) with rfl | rfl | rfl <;> decide

theorem Spec.Path.Blanks.first {bl : List UChar} (h : Blanks bl) {x : UChar} (hx : x ≠ 9 ∧ x ≠ 13 ∧ x ≠ 32) (hc : first cs ≠ x) :
    first (bl ++ cs) ≠ x := by
  cases bl with
  | nil => exact hc
  | cons c bl =>
    rw [List.cons_append, first_cons]
    rcases h c (by simp) with rfl | rfl | rfl <;> omega

theorem Spec.Path.Blanks.digit {bl : List UChar} (h : Blanks bl) (hc : ¬ (48 ≤ TW.first cs ∧ TW.first cs ≤ 57)) :
    ¬ (48 ≤ TW.first (bl ++ cs) ∧ TW.first (bl ++ cs) ≤ 57) := by
  cases bl with
  | nil => exact hc
  | cons c bl =>
    rw [List.cons_append, first_cons]
    rcases h c (by simp) with rfl | rfl | rfl <;> omega

theorem Rd.content (he : PageOk e) {e' : Enc} {n : Nat} {st : PState} {b : List UChar} (hb' : Blanks b) (hn : b.length < n)
    (hs : st = .SelectStart ∨ st = .SelectTag ∨ st = .SelectTagId ∨ st = .SelectCondition) (h : Rd bs hb e t (40 :: (b ++ 41 :: cs))) :
    ∃ t', Parse.turn e' n st 40 t = (.ok (some (.call .content, .SelectContent)), t') ∧ Rd bs hb e t' cs := by
  obtain ⟨t1, h1, h2⟩ := h.skip he
  obtain ⟨t2, h3, h4⟩ := h2.spaces (n := n) he hb' (show controlCharMap 41 ≠ .Space by decide) hn
  obtain ⟨t3, h5, h6⟩ := h4.chr he
  obtain ⟨t4, h7, h8⟩ := h6.skip he
  refine ⟨t4, ?_, h8⟩
  unfold Parse.turn
  rw [if_neg (by decide), if_neg (by decide), if_neg (by decide), if_pos rfl, if_neg (by rcases hs with rfl | rfl | rfl | rfl <;> decide),
    M.bind_ok h1, M.bind_ok h3, M.bind_ok h5, first_cons, if_neg (by decide), M.bind_ok h7]
  rfl

theorem Rd.close (he : PageOk e) {e' : Enc} {n : Nat} {st : PState} (hs : st = .SelectStart ∨ st = .SelectTagId ∨ st = .SelectCondition)
    (h : Rd bs hb e t (126 :: cs)) :
    ∃ t', Parse.turn e' n st 126 t = (.ok (some (.call .closeTag, .SelectContent)), t') ∧ Rd bs hb e t' cs := by
  obtain ⟨t1, h1, h2⟩ := h.skip he
  refine ⟨t1, ?_, h2⟩
  unfold Parse.turn
  rw [if_neg (by decide), if_neg (by decide), if_neg (by decide), if_neg (by decide), if_neg (by decide), if_neg (by decide), if_pos rfl,
    if_neg (by rcases hs with rfl | rfl | rfl <;> decide), M.bind_ok h1]
  rfl

theorem isId_noBlank (h : isId cs = true) : NoBlank cs := by
  unfold NoBlank
  unfold isId at h
  rw [Bool.and_eq_true, decide_eq_true_eq] at h
  rcases h.1 with h | h <;> rw [h] <;> decide

/-- What a name calls behind '@' or elsewhere. -/
def nameAct (e' : Enc) (st : PState) : TName → Act
  | .any => .call (if st = .SelectAttribute then .attribute none else .tag none)
  | .one cs => .call (if st = .SelectAttribute then .attribute (some (cs.flatMap e'.print)) else .tag (some (cs.flatMap e'.print)))
  | .alt l => if st = .SelectAttribute then .attributes (l.map fun cs => cs.flatMap e'.print) else .tags (l.map fun cs => cs.flatMap e'.print)

/-- The state behind a name. -/
def nameNext (st : PState) : PState := if st = .SelectAttribute then .SelectAttributeId else .SelectTagId

theorem Rd.identifiers (he : PageOk e) {e' : Enc} {n : Nat} (l : List (List UChar)) : ∀ (m : Nat) (t : Parse.Src) (c : UChar) (r : List UChar),
    Listed l r → (∀ id ∈ l, Identifier id) → Rd bs hb e t (c :: (r ++ 125 :: cs)) → r.length < n → l.length ≤ m →
    ∃ t', Parse.identifiers e' n m t = (.ok (some (l.map fun cs => cs.flatMap e'.print)), t') ∧ Rd bs hb e t' (125 :: cs) := by
  induction l with
  | nil => intro m t c r h; exact h.elim
  | cons id l ih =>
    intro m t c r hl hi h hn hm
    obtain ⟨m, rfl⟩ : ∃ j, m = j + 1 := ⟨m - 1, by simp at hm; omega⟩
    have hid := hi id (by simp)
    have key : ∀ {b b' rest : List UChar}, Blanks b → Blanks b' → Rd bs hb e t (c :: (b ++ (id ++ (b' ++ rest)))) → NoBlank rest → isId rest = false →
        b.length < n → id.length < n → b'.length < n → ∃ t1 t2 t3 t4 t5 t6, TextScanner.skip t = (.ok (), t1) ∧ Parse.skipSpaces n t1 = (.ok (), t2) ∧
          Parse.isIdentifierChar t2 = (.ok true, t3) ∧ Parse.parseIdentifier e' n t3 = (.ok (id.flatMap e'.print), t4) ∧
          Parse.skipSpaces n t4 = (.ok (), t5) ∧ TextScanner.chr t5 = (.ok (TW.first rest), t6) ∧ Rd bs hb e t6 rest := by
      intro b b' rest hb1 hb2 h hr hr2 n1 n2 n3
      obtain ⟨t1, h1, h2⟩ := h.skip he
      obtain ⟨t2, h3, h4⟩ := h2.spaces (n := n) he hb1 (isId_noBlank (Identifier.isId hid _)) n1
      obtain ⟨t3, h5, h6⟩ := h4.isIdentifierChar he
      obtain ⟨t4, h7, h8⟩ := Rd.parseIdentifier (e' := e') he id n t3 h6 hid.2 (hb2.isId hr2) n2
      obtain ⟨t5, h9, h10⟩ := h8.spaces (n := n) he hb2 hr n3
      obtain ⟨t6, h11, h12⟩ := h10.chr he
      rw [Identifier.isId hid] at h5
      exact ⟨t1, t2, t3, t4, t5, t6, h1, h3, h5, h7, h9, h11, h12⟩
    cases l with
    | nil =>
      obtain ⟨b, b', hb1, hb2, rfl⟩ := hl
      simp only [List.length_append] at hn
      obtain ⟨t1, t2, t3, t4, t5, t6, h1, h2, h3, h4, h5, h6, h7⟩ := key (rest := 125 :: cs) hb1 hb2 (by simpa using h)
        (show controlCharMap 125 ≠ .Space by decide) (by rw [isId_cons]; decide) (by omega) (by omega) (by omega)
      refine ⟨t6, ?_, h7⟩
      unfold Parse.identifiers
      rw [M.bind_ok h1, M.bind_ok h2, M.bind_ok h3, if_pos rfl, M.bind_ok h4, M.bind_ok h5, M.bind_ok h6, first_cons, if_neg (by decide)]
      rfl
    | cons id' l =>
      obtain ⟨b, b', r', hb1, hb2, rfl, hl⟩ := hl
      simp only [List.length_append, List.length_cons, List.length_nil] at hn
      obtain ⟨t1, t2, t3, t4, t5, t6, h1, h2, h3, h4, h5, h6, h7⟩ := key (rest := 44 :: (r' ++ 125 :: cs)) hb1 hb2 (by simpa using h)
        (show controlCharMap 44 ≠ .Space by decide) (by rw [isId_cons]; decide) (by omega) (by omega) (by omega)
      obtain ⟨t7, h8, h9⟩ := ih m t6 44 r' hl (fun x hx => hi x (by simp at hx ⊢; simp [hx])) h7 (by omega) (by simp at hm ⊢; omega)
      refine ⟨t7, ?_, h9⟩
      unfold Parse.identifiers
      rw [M.bind_ok h1, M.bind_ok h2, M.bind_ok h3, if_pos rfl, M.bind_ok h4, M.bind_ok h5, M.bind_ok h6, first_cons, if_pos rfl, M.bind_ok h8]
      rfl

theorem listed_length {l : List (List UChar)} (hi : ∀ id ∈ l, Identifier id) : ∀ {r : List UChar}, Listed l r → l.length ≤ r.length := by
  induction l with
  | nil => intro r h; exact h.elim
  | cons id l ih =>
    intro r h
    have := List.length_pos_iff.2 (hi id (by simp)).1
    cases l with
    | nil =>
      obtain ⟨b, b', -, -, rfl⟩ := h
      simp; omega
    | cons id' l =>
      obtain ⟨b, b', r', -, -, rfl, h⟩ := h
      have := ih (fun x hx => hi x (by simp at hx ⊢; simp [hx])) h
      simp at this ⊢
      omega

theorem Rd.name (he : PageOk e) {e' : Enc} {n : Nat} {st : PState} (hs : st = .SelectStart ∨ st = .SelectTag ∨ st = .SelectAttribute) {name : TName}
    (hk : name.Ok) {p : List UChar} (hp : name.Text p) (h : Rd bs hb e t (p ++ cs)) (hc : isId cs = false) (hn : p.length < n) :
    ∃ t', Parse.turn e' n st (first (p ++ cs)) t = (.ok (some (nameAct e' st name, nameNext st)), t') ∧ Rd bs hb e t' cs := by
  have hs' : ¬ (st ≠ .SelectStart ∧ st ≠ .SelectTag ∧ st ≠ .SelectAttribute) := by rcases hs with rfl | rfl | rfl <;> decide
  cases name with
  | any =>
    cases hp
    obtain ⟨t1, h1, h2⟩ := h.skip he
    refine ⟨t1, ?_, h2⟩
    show Parse.turn e' n st 42 t = _
    unfold Parse.turn
    rw [if_neg (by decide), if_neg (by decide), if_neg (by decide), if_neg (by decide), if_pos rfl, if_neg hs', M.bind_ok h1]
    rcases hs with rfl | rfl | rfl <;> rfl
  | one id =>
    have hi : Identifier id := hk
    change p = id at hp
    subst hp
    obtain ⟨t1, h1, h2⟩ := h.isIdentifierChar he
    obtain ⟨t2, h3, h4⟩ := Rd.parseIdentifier (e' := e') he p n t1 h2 hi.2 hc hn
    refine ⟨t2, ?_, h4⟩
    have hf := (Identifier.first hi cs).2.1
    generalize first (p ++ cs) = c at hf ⊢
    have hx : ∀ x, x ∈ ascii "!\"&'()*,-/;<=>?@[]{}~" → c ≠ x := fun x hx h => hf (h ▸ hx)
    unfold Parse.turn
    rw [if_neg (hx _ (by decide)), if_neg (hx _ (by decide)), if_neg (hx _ (by decide)), if_neg (hx _ (by decide)), if_neg (hx _ (by decide)),
      if_neg (hx _ (by decide)), if_neg (hx _ (by decide)), if_neg hs', M.bind_ok h1, Identifier.isId hi, if_pos rfl, M.bind_ok h3]
    rcases hs with rfl | rfl | rfl <;> rfl
  | alt l =>
    obtain ⟨r, hl, rfl⟩ := hp
    simp only [List.length_append, List.length_cons, List.length_nil] at hn
    have := listed_length hk.2 hl
    obtain ⟨t1, h1, h2⟩ := Rd.identifiers (e' := e') (n := n) he l n t 123 r hl hk.2 (by simpa using h) (by omega) (by omega)
    obtain ⟨t2, h3, h4⟩ := h2.chr he
    obtain ⟨t3, h5, h6⟩ := h4.skip he
    refine ⟨t3, ?_, h6⟩
    have hlist : Parse.identifierList e' n t = (.ok (some (l.map fun cs => cs.flatMap e'.print)), t3) := by
      unfold Parse.identifierList
      rw [M.bind_ok h1]
      simp only []
      rw [M.bind_ok h3, first_cons, if_neg (by decide), M.bind_ok h5]
      rfl
    show Parse.turn e' n st 123 t = _
    unfold Parse.turn
    rw [if_neg (by decide), if_neg (by decide), if_neg (by decide), if_neg (by decide), if_neg (by decide), if_pos rfl, if_neg hs', M.bind_ok hlist]
    rcases hs with rfl | rfl | rfl <;> rfl

theorem TValue.noBlank {v : TValue} (hv : v.Ok) (cs : List UChar) : NoBlank (v.text ++ cs) := by
  cases v with
  | bare id => exact isId_noBlank (Identifier.isId hv _)
  | quoted q id =>
    obtain ⟨rfl | rfl, -⟩ := hv
    · exact (show controlCharMap 34 ≠ .Space by decide)
    · exact (show controlCharMap 39 ≠ .Space by decide)

theorem Rd.attributeCondition (he : PageOk e) {e' : Enc} {n : Nat} {name : List UChar} {v : TValue} (hk : Identifier name) (hv : v.Ok)
    {b2 b3 b4 b5 : List UChar} (k2 : Blanks b2) (k3 : Blanks b3) (k4 : Blanks b4) (k5 : Blanks b5)
    (h : Rd bs hb e t (64 :: (b2 ++ (name ++ (b3 ++ 61 :: (b4 ++ (v.text ++ (b5 ++ 93 :: cs))))))))
    (hn : b2.length + name.length + b3.length + b4.length + v.text.length + b5.length < n) :
    ∃ t', Parse.attributeCondition e' n t = (.ok (some (.call ((TCond.attr name v).call e'))), t') ∧ Rd bs hb e t' cs := by
  obtain ⟨t1, h1, h2⟩ := h.skip he
  obtain ⟨t2, h3, h4⟩ := h2.spaces (n := n) he k2 (isId_noBlank (Identifier.isId hk _)) (by omega)
  obtain ⟨t3, h5, h6⟩ := h4.isIdentifierChar he
  obtain ⟨t4, h7, h8⟩ := Rd.parseIdentifier (e' := e') he name n t3 h6 hk.2 (k3.isId (by rw [isId_cons]; decide)) (by omega)
  obtain ⟨t5, h9, h10⟩ := h8.spaces (n := n) he k3 (show controlCharMap 61 ≠ .Space by decide) (by omega)
  obtain ⟨t6, h11, h12⟩ := h10.chr he
  obtain ⟨t7, h13, h14⟩ := h12.skip he
  obtain ⟨t8, h15, h16⟩ := h14.spaces (n := n) he k4 (TValue.noBlank hv _) (by omega)
  obtain ⟨t9, h17, h18⟩ := Rd.parseValue (e' := e') (n := n) he hv h16 (k5.isId (by rw [isId_cons]; decide)) (by omega)
  obtain ⟨t10, h19, h20⟩ := h18.spaces (n := n) he k5 (show controlCharMap 93 ≠ .Space by decide) (by omega)
  obtain ⟨t11, h21, h22⟩ := h20.chr he
  obtain ⟨t12, h23, h24⟩ := h22.skip he
  refine ⟨t12, ?_, h24⟩
  unfold Parse.attributeCondition
  rw [M.bind_ok h1, M.bind_ok h3, M.bind_ok h5, Identifier.isId hk, if_pos rfl, M.bind_ok h7, M.bind_ok h9, M.bind_ok h11, first_cons,
    if_neg (by decide), M.bind_ok h13, M.bind_ok h15, M.bind_ok h17, M.bind_ok h19]
  simp only []
  rw [M.bind_ok h21, first_cons, if_neg (by decide), M.bind_ok h23]
  rfl

theorem num_isId {ds : List UChar} (h : Number ds) (cs : List UChar) : first (ds ++ cs) ≠ 93 ∧ first (ds ++ cs) ≠ 64 := by
  obtain ⟨h1, h2, h3⟩ := h
  cases ds with
  | nil => exact (h1 rfl).elim
  | cons d ds =>
    have := h3 d (by simp)
    rw [List.cons_append, first_cons]
    omega

theorem Rd.index (he : PageOk e) {n : Nat} {i : List UChar} (hi : Number i) {b : List UChar} (k : Blanks b)
    (h : Rd bs hb e t (i ++ (b ++ 93 :: cs))) (hn : i.length + b.length < n) :
    ∃ t', Parse.rangeCondition n t = (.ok (some (.call (.index (decimal i)))), t') ∧ Rd bs hb e t' cs := by
  obtain ⟨t1, h1, h2⟩ := h.noSpaces (n := n) he (by omega) (isId_noBlank (Number.isId hi _))
  obtain ⟨t2, h3, h4⟩ := h2.isIdentifierChar he
  obtain ⟨t3, h5, h6⟩ := Rd.parseNum (n := n) he hi h4 (k.digit (by rw [first_cons]; omega)) (by omega)
  obtain ⟨t4, h7, h8⟩ := h6.spaces (n := n) he k (show controlCharMap 93 ≠ .Space by decide) (by omega)
  obtain ⟨t5, h9, h10⟩ := h8.chr he
  obtain ⟨t6, h11, h12⟩ := h10.skip he
  refine ⟨t6, ?_, h12⟩
  unfold Parse.rangeCondition
  rw [M.bind_ok h1, M.bind_ok h3, Number.isId hi, if_pos rfl, M.bind_ok h5]
  simp only []
  rw [M.bind_ok h7, M.bind_ok h9, first_cons, if_neg (by decide), if_pos rfl, M.bind_ok h11]
  rfl

theorem Rd.from' (he : PageOk e) {n : Nat} {i : List UChar} (hi : Number i) {b b' : List UChar} (k : Blanks b) (k' : Blanks b')
    (h : Rd bs hb e t (i ++ (b ++ 44 :: (b' ++ 93 :: cs)))) (hn : i.length + b.length + b'.length < n) :
    ∃ t', Parse.rangeCondition n t = (.ok (some (.call (.from' (decimal i)))), t') ∧ Rd bs hb e t' cs := by
  obtain ⟨t1, h1, h2⟩ := h.noSpaces (n := n) he (by omega) (isId_noBlank (Number.isId hi _))
  obtain ⟨t2, h3, h4⟩ := h2.isIdentifierChar he
  obtain ⟨t3, h5, h6⟩ := Rd.parseNum (n := n) he hi h4 (k.digit (by rw [first_cons]; omega)) (by omega)
  obtain ⟨t4, h7, h8⟩ := h6.spaces (n := n) he k (show controlCharMap 44 ≠ .Space by decide) (by omega)
  obtain ⟨t5, h9, h10⟩ := h8.chr he
  obtain ⟨t6, h11, h12⟩ := h10.skip he
  obtain ⟨t7, h13, h14⟩ := h12.spaces (n := n) he k' (show controlCharMap 93 ≠ .Space by decide) (by omega)
  obtain ⟨t8, h15, h16⟩ := h14.chr he
  obtain ⟨t9, h17, h18⟩ := h16.skip he
  refine ⟨t9, ?_, h18⟩
  unfold Parse.rangeCondition
  rw [M.bind_ok h1, M.bind_ok h3, Number.isId hi, if_pos rfl, M.bind_ok h5]
  simp only []
  rw [M.bind_ok h7, M.bind_ok h9, first_cons, if_pos rfl, M.bind_ok h11, M.bind_ok h13, M.bind_ok h15, first_cons, if_pos rfl, M.bind_ok h17]
  rfl

theorem Rd.range (he : PageOk e) {n : Nat} {i j : List UChar} (hi : Number i) (hj : Number j) {b b' b'' : List UChar} (k : Blanks b) (k' : Blanks b')
    (k'' : Blanks b'') (h : Rd bs hb e t (i ++ (b ++ 44 :: (b' ++ (j ++ (b'' ++ 93 :: cs))))))
    (hn : i.length + b.length + b'.length + j.length + b''.length < n) :
    ∃ t', Parse.rangeCondition n t = (.ok (some (.call (.range (decimal i) (decimal j)))), t') ∧ Rd bs hb e t' cs := by
  obtain ⟨t1, h1, h2⟩ := h.noSpaces (n := n) he (by omega) (isId_noBlank (Number.isId hi _))
  obtain ⟨t2, h3, h4⟩ := h2.isIdentifierChar he
  obtain ⟨t3, h5, h6⟩ := Rd.parseNum (n := n) he hi h4 (k.digit (by rw [first_cons]; omega)) (by omega)
  obtain ⟨t4, h7, h8⟩ := h6.spaces (n := n) he k (show controlCharMap 44 ≠ .Space by decide) (by omega)
  obtain ⟨t5, h9, h10⟩ := h8.chr he
  obtain ⟨t6, h11, h12⟩ := h10.skip he
  obtain ⟨t7, h13, h14⟩ := h12.spaces (n := n) he k' (isId_noBlank (Number.isId hj _)) (by omega)
  obtain ⟨t8, h15, h16⟩ := h14.chr he
  obtain ⟨t9, h17, h18⟩ := h16.isIdentifierChar he
  obtain ⟨t10, h19, h20⟩ := Rd.parseNum (n := n) he hj h18 (k''.digit (by rw [first_cons]; omega)) (by omega)
  obtain ⟨t11, h21, h22⟩ := h20.spaces (n := n) he k'' (show controlCharMap 93 ≠ .Space by decide) (by omega)
  obtain ⟨t12, h23, h24⟩ := h22.chr he
  obtain ⟨t13, h25, h26⟩ := h24.skip he
  refine ⟨t13, ?_, h26⟩
  unfold Parse.rangeCondition
  rw [M.bind_ok h1, M.bind_ok h3, Number.isId hi, if_pos rfl, M.bind_ok h5]
  simp only []
  rw [M.bind_ok h7, M.bind_ok h9, first_cons, if_pos rfl, M.bind_ok h11, M.bind_ok h13, M.bind_ok h15, if_neg (num_isId hj _).1, M.bind_ok h17,
    Number.isId hj, if_pos rfl, M.bind_ok h19]
  simp only []
  rw [M.bind_ok h21, M.bind_ok h23, first_cons, if_neg (by decide), M.bind_ok h25]
  rfl

theorem Rd.cond (he : PageOk e) {e' : Enc} {n : Nat} {st : PState}
    (hs : st = .SelectStart ∨ st = .SelectTag ∨ st = .SelectTagId ∨ st = .SelectCondition) {c : TCond} (hc : c.Ok) {p : List UChar} (hp : c.Text p)
    (h : Rd bs hb e t (p ++ cs)) (hn : p.length < n) :
    ∃ t', Parse.turn e' n st 91 t = (.ok (some (.call (c.call e'), .SelectCondition)), t') ∧ Rd bs hb e t' cs := by
  have key : ∀ {b r : List UChar} {act : Act} {t : Parse.Src}, Rd bs hb e t (91 :: (b ++ r)) → Blanks b → b.length < n → NoBlank r →
      (∀ t, Rd bs hb e t r → ∃ t', (if first r = 64 then Parse.attributeCondition e' n else Parse.rangeCondition n) t = (.ok (some act), t') ∧ Rd bs hb e t' cs) →
      ∃ t', Parse.turn e' n st 91 t = (.ok (some (act, .SelectCondition)), t') ∧ Rd bs hb e t' cs := by
    intro b r act t h k1 k2 hb' hx
    obtain ⟨t1, h1, h2⟩ := h.skip he
    obtain ⟨t2, h3, h4⟩ := h2.spaces (n := n) he k1 hb' k2
    obtain ⟨t3, h5, h6⟩ := h4.chr he
    obtain ⟨t4, h7, h8⟩ := hx t3 h6
    refine ⟨t4, ?_, h8⟩
    unfold Parse.turn
    rw [if_neg (by decide), if_neg (by decide), if_pos rfl, if_neg (by rcases hs with rfl | rfl | rfl | rfl <;> decide), M.bind_ok h1, M.bind_ok h3,
      M.bind_ok h5]
    by_cases hf : first r = 64
    · rw [if_pos hf] at h7 ⊢
      rw [M.bind_ok h7]
      rfl
    · rw [if_neg hf] at h7 ⊢
      rw [M.bind_ok h7]
      rfl
  cases c with
  | attr name v =>
    obtain ⟨b1, b2, b3, b4, b5, k1, k2, k3, k4, k5, rfl⟩ := hp
    simp only [List.length_append, List.length_cons, List.length_nil] at hn
    refine key (b := b1) (r := 64 :: (b2 ++ (name ++ (b3 ++ 61 :: (b4 ++ (v.text ++ (b5 ++ 93 :: cs))))))) (by simpa using h) k1 (by omega)
      (show controlCharMap 64 ≠ .Space by decide) ?_
    intro t ht
    rw [first_cons, if_pos rfl]
    exact Rd.attributeCondition he hc.1 hc.2 k2 k3 k4 k5 ht (by omega)
  | index i =>
    obtain ⟨b1, b2, k1, k2, rfl⟩ := hp
    simp only [List.length_append, List.length_cons, List.length_nil] at hn
    refine key (b := b1) (r := i ++ (b2 ++ 93 :: cs)) (by simpa using h) k1 (by omega) (isId_noBlank (Number.isId hc _)) ?_
    intro t ht
    rw [if_neg (num_isId hc _).2]
    exact Rd.index he hc k2 ht (by omega)
  | range i j =>
    obtain ⟨b1, b2, b3, b4, k1, k2, k3, k4, rfl⟩ := hp
    simp only [List.length_append, List.length_cons, List.length_nil] at hn
    refine key (b := b1) (r := i ++ (b2 ++ 44 :: (b3 ++ (j ++ (b4 ++ 93 :: cs))))) (by simpa using h) k1 (by omega) (isId_noBlank (Number.isId hc.1 _)) ?_
    intro t ht
    rw [if_neg (num_isId hc.1 _).2]
    exact Rd.range he hc.1 hc.2 k2 k3 k4 ht (by omega)
  | from' i =>
    obtain ⟨b1, b2, b3, k1, k2, k3, rfl⟩ := hp
    simp only [List.length_append, List.length_cons, List.length_nil] at hn
    refine key (b := b1) (r := i ++ (b2 ++ 44 :: (b3 ++ 93 :: cs))) (by simpa using h) k1 (by omega) (isId_noBlank (Number.isId hc _)) ?_
    intro t ht
    rw [if_neg (num_isId hc _).2]
    exact Rd.from' he hc k2 k3 ht (by omega)


/-! ## The loop -/

/-- A piece of a text is read in one turn, if the text behind fulfills `B`. -/
def Turns (bs : List Byte) (hb : ∀ b ∈ bs, b < 256) (e e' : Enc) (n : Nat) (B : List UChar → Prop) (st : PState) (tok : Tok) (act : Act) (st' : PState) : Prop :=
  ∀ t p cs, tok.Text p → Rd bs hb e t (p ++ cs) → B cs → p.length < n →
    ∃ t', Parse.turn e' n st (first (p ++ cs)) t = (.ok (some (act, st')), t') ∧ Rd bs hb e t' cs

/-- The texts of a piece are not empty, and do not begin with a blank. -/
def Starts (tok : Tok) : Prop := ∀ p, tok.Text p → p ≠ [] ∧ ∀ r, NoBlank (p ++ r)

/-- The pieces of a text with the calls they stand for. -/
inductive Chain (bs : List Byte) (hb : ∀ b ∈ bs, b < 256) (e e' : Enc) (n : Nat) : PState → List (Tok × Act) → Prop where
  | nil (st : PState) : Chain bs hb e e' n st []
  | cons {st st' : PState} {tok : Tok} {act : Act} {l : List (Tok × Act)} {B : List UChar → Prop}
    (h0 : Starts tok) (ht : Turns bs hb e e' n B st tok act st')
    (hB : ∀ bl cs, Blanks bl → B cs → B (bl ++ cs)) (hn : B []) (hh : ∀ x ∈ l.head?, ∀ p r, x.1.Text p → B (p ++ r)) :
    Chain bs hb e e' n st' l → Chain bs hb e e' n st ((tok, act) :: l)

/-- The calls of the pieces and the assignment of the type. -/
def runActs (e' : Enc) (n : Nat) (type : Int) : List Act → List PElem → M Atm Unit
  | [], ps => do
    let _ ← forEach e' n (.assign type) ps
    pure ()
  | a :: as, ps => do
    let ps ← a.run e' n ps
    runActs e' n type as ps

/-- The return value 0 with the automaton built, or the exception. -/
def parsed (r : Res Unit × Atm) : Res Nat × Atm :=
  match r with
  | (.ok _, a) => (.ok 0, a)
  | (.stop er, a) => (.stop er, a)

theorem parsed_ok (a : Atm) : parsed (.ok (), a) = (.ok 0, a) := rfl
theorem parsed_stop (er : Stop) (a : Atm) : parsed (.stop er, a) = (.stop er, a) := rfl

theorem onSrc_ok {α : Type} {x : M Parse.Src α} {t t' : Parse.Src} {a : Atm} {v : α} (h : x t = (.ok v, t')) :
    Parser.onSrc x { src := t, atm := a } = (.ok v, { src := t', atm := a }) := by
  simp [Parser.onSrc, M.zoom, h]

theorem onAtm_run {α : Type} {x : M Atm α} {t : Parse.Src} {a a' : Atm} {v : Res α} (h : x a = (v, a')) :
    Parser.onAtm x { src := t, atm := a } = (v, { src := t, atm := a' }) := by
  simp [Parser.onAtm, M.zoom, h]

theorem Chain.noBlank {e' : Enc} {n : Nat} {st : PState} {l : List (Tok × Act)} (h : Chain bs hb e e' n st l) (ht : Texts (l.map (·.1)) cs) :
    NoBlank cs := by
  cases h with
  | nil => cases ht; exact (show controlCharMap 0 ≠ .Space by decide)
  | cons h0 =>
    obtain ⟨p, b, r, h1, -, rfl, -⟩ := ht
    rw [List.append_assoc]
    exact (h0 p h1).2 _

theorem Chain.loop (he : PageOk e) {e' : Enc} {n : Nat} {type : Int} (l : List (Tok × Act)) : ∀ (m : Nat) (st : PState) (ps : List PElem) (t : Parse.Src)
    (a : Atm) (cs : List UChar), Chain bs hb e e' n st l → Texts (l.map (·.1)) cs →
    Rd bs hb e t cs → l.length < m → cs.length < n →
    ∃ t', Parser.loop e' n type m st ps { src := t, atm := a } = ((parsed (runActs e' n type (l.map (·.2)) ps a)).1,
      { src := t', atm := (parsed (runActs e' n type (l.map (·.2)) ps a)).2 }) := by
  induction l with
  | nil =>
    intro m st ps t a cs _ hx hr hm _
    obtain ⟨m, rfl⟩ : ∃ j, m = j + 1 := ⟨m - 1, by simp at hm; omega⟩
    cases hx
    obtain ⟨t1, h1, h2⟩ := hr.chr he
    refine ⟨t1, ?_⟩
    unfold Parser.loop
    rw [M.bind_ok (onSrc_ok h1), if_pos (show first [] = 0 from rfl)]
    rcases hf : forEach e' n (.assign type) ps a with ⟨r, a'⟩
    cases r with
    | ok v =>
      rw [M.bind_ok (onAtm_run hf), show runActs e' n type (List.map (·.2) ([] : List (Tok × Act))) ps a = (.ok (), a') from M.bind_ok hf]
      rfl
    | stop er =>
      rw [M.bind_stop (onAtm_run hf), show runActs e' n type (List.map (·.2) ([] : List (Tok × Act))) ps a = (.stop er, a') from M.bind_stop hf]
      rfl
  | cons x l ih =>
    intro m st ps t a cs hc hx hr hm hn
    obtain ⟨m, rfl⟩ : ∃ j, m = j + 1 := ⟨m - 1, by simp at hm; omega⟩
    obtain ⟨tok, act⟩ := x
    obtain ⟨p, bl, r, hp, hbl, rfl, hx⟩ := hx
    cases hc with
    | @cons _ st' _ _ _ B h0 ht hB hn0 hh hc =>
      rw [List.append_assoc] at hr hn
      have hBr : B (bl ++ r) := by
        refine hB _ _ hbl ?_
        cases l with
        | nil => cases hx; exact hn0
        | cons y l =>
          obtain ⟨p', bl', r', hp', -, rfl, -⟩ := hx
          rw [List.append_assoc]
          exact hh y (by simp) _ _ hp'
      simp only [List.length_append] at hn
      obtain ⟨t1, h1, h2⟩ := hr.chr he
      obtain ⟨t2, h3, h4⟩ := ht t1 p _ hp h2 hBr (by omega)
      obtain ⟨t3, h5, h6⟩ := Rd.skipSpaces he n t2 bl h4 hbl (hc.noBlank hx) (by omega)
      have hne : first (p ++ (bl ++ r)) ≠ 0 := by
        obtain ⟨k, ld, -, -, h9, -⟩ := hr
        cases p with
        | nil => exact ((h0 [] hp).1 rfl).elim
        | cons c p => exact (h9 c (by simp)).1
      unfold Parser.loop
      rw [M.bind_ok (onSrc_ok h1), if_neg hne, M.bind_ok (onSrc_ok h3)]
      simp only []
      rcases hf : act.run e' n ps a with ⟨r, a'⟩
      cases r with
      | ok v =>
        obtain ⟨t4, h7⟩ := ih m st' v t3 a' _ hc hx h6 (by simp at hm; omega) (by omega)
        refine ⟨t4, ?_⟩
        rw [M.bind_ok (onAtm_run hf), M.bind_ok (onSrc_ok h5), h7,
          show runActs e' n type (List.map (·.2) ((tok, act) :: l)) ps a = runActs e' n type (l.map (·.2)) v a' from M.bind_ok hf]
      | stop er =>
        refine ⟨t2, ?_⟩
        rw [M.bind_stop (onAtm_run hf), show runActs e' n type (List.map (·.2) ((tok, act) :: l)) ps a = (.stop er, a') from M.bind_stop hf]
        rfl


/-! ## Expressions -/

/-- The state of the parser behind a piece, with the calls; none if the piece cannot come there. -/
def Spec.Path.Tok.next (e' : Enc) (st : PState) : Tok → Option (Act × PState)
  | .at => if st = .SelectStart ∨ st = .SelectTag ∨ st = .SelectTagId ∨ st = .SelectCondition then some (.none, .SelectAttribute) else none
  | .slash desc => if st = .SelectStart ∨ st = .SelectTagId ∨ st = .SelectCondition then
      some (if desc then .call .follow else .none, .SelectTag) else none
  | .cond c => if st = .SelectStart ∨ st = .SelectTag ∨ st = .SelectTagId ∨ st = .SelectCondition then
      some (.call (c.call e'), .SelectCondition) else none
  | .content => if st = .SelectStart ∨ st = .SelectTag ∨ st = .SelectTagId ∨ st = .SelectCondition then
      some (.call .content, .SelectContent) else none
  | .name nm => if st = .SelectStart ∨ st = .SelectTag ∨ st = .SelectAttribute then some (nameAct e' st nm, nameNext st) else none
  | .close => if st = .SelectStart ∨ st = .SelectTagId ∨ st = .SelectCondition then some (.call .closeTag, .SelectContent) else none

/-- The calls of pieces. -/
def runToks (e' : Enc) : PState → List Tok → Option (List Act)
  | _, [] => some []
  | st, k :: ks =>
    match k.next e' st with
    | none => none
    | some (act, st') => (runToks e' st' ks).map (act :: ·)

/-- What the pieces are made of is of the grammar. -/
def Spec.Path.Tok.Ok : Tok → Prop
  | .name nm => nm.Ok
  | .cond c => c.Ok
  | _ => True

theorem TName.first {nm : TName} (hk : nm.Ok) {p : List UChar} (hp : nm.Text p) (r : List UChar) :
    p ≠ [] ∧ NoBlank (p ++ r) ∧ TW.first (p ++ r) ≠ 47 := by
  cases nm with
  | any => cases hp; exact ⟨by simp, (show controlCharMap 42 ≠ .Space by decide), (show 42 ≠ 47 by decide)⟩
  | one cs =>
    change p = cs at hp
    subst hp
    refine ⟨hk.1, isId_noBlank (Identifier.isId hk r), fun hc => ?_⟩
    have := (Identifier.first hk r).2.1
    rw [hc] at this
    exact this (by decide)
  | alt l =>
    obtain ⟨r, -, rfl⟩ := hp
    exact ⟨by simp, (show controlCharMap 123 ≠ .Space by decide), (show 123 ≠ 47 by decide)⟩

theorem cond_text {c : TCond} {p : List UChar} (hp : c.Text p) : ∃ q, p = 91 :: q := by
  cases c with
  | attr name v => obtain ⟨b1, b2, b3, b4, b5, -, -, -, -, -, rfl⟩ := hp; exact ⟨_, rfl⟩
  | index i => obtain ⟨b1, b2, -, -, rfl⟩ := hp; exact ⟨_, rfl⟩
  | range i j => obtain ⟨b1, b2, b3, b4, -, -, -, -, rfl⟩ := hp; exact ⟨_, rfl⟩
  | from' i => obtain ⟨b1, b2, b3, -, -, -, rfl⟩ := hp; exact ⟨_, rfl⟩

/-- The first character of a piece that is no name. -/
theorem tok_text {k : Tok} {p : List UChar} (hp : k.Text p) : (∃ nm, k = .name nm) ∨ ∃ c q, p = c :: q ∧ c ∈ [47, 91, 64, 40, 126] := by
  cases k with
  | slash desc => right; cases desc <;> cases hp <;> exact ⟨_, _, rfl, by simp⟩
  | «at» => right; cases hp; exact ⟨_, _, rfl, by simp⟩
  | name nm => exact .inl ⟨nm, rfl⟩
  | cond c => right; obtain ⟨q, rfl⟩ := cond_text hp; exact ⟨_, _, rfl, by simp⟩
  | content => right; obtain ⟨b, -, rfl⟩ := hp; exact ⟨_, _, rfl, by simp⟩
  | close => right; cases hp; exact ⟨_, _, rfl, by simp⟩

theorem Spec.Path.Tok.Ok.starts {k : Tok} (hk : k.Ok) : Starts k := by
  intro p hp
  rcases tok_text hp with ⟨nm, rfl⟩ | ⟨c, q, rfl, hc⟩
  · exact ⟨(TName.first hk hp []).1, fun r => (TName.first hk hp r).2.1⟩
  · refine ⟨by simp, fun r => ?_⟩
    have : ∀ c ∈ [47, 91, 64, 40, 126], controlCharMap (ascOf [c]) ≠ .Space := by decide
    exact this c hc

variable {e' : Enc} {n : Nat} {st : PState}

/-- Which pieces can come behind a name. -/
theorem next_name {st' : PState} {act : Act} {k : Tok} {nm : TName} (h : (Tok.name nm).next e' st = some (act, st')) {r : Act × PState}
    (hk : k.next e' st' = some r) : ∀ nm', k ≠ .name nm' := by
  rintro nm' rfl
  simp only [Tok.next] at h hk
  split at h
  · cases h
    rw [if_neg] at hk
    · cases hk
    · unfold nameNext; split <;> decide
  · cases h

/-- Which pieces can come behind a separator. -/
theorem next_slash {st' : PState} {act : Act} {k : Tok} {desc : Bool} (h : (Tok.slash desc).next e' st = some (act, st')) {r : Act × PState}
    (hk : k.next e' st' = some r) : ∀ d, k ≠ .slash d := by
  rintro d rfl
  simp only [Tok.next] at h hk
  split at h
  · cases h
    rw [if_neg (by decide)] at hk
    cases hk
  · cases h

/-- Every sequence of pieces the parser can come through is read. -/
theorem Chain.of (he : PageOk e) (ks : List Tok) : ∀ (st : PState) (acts : List Act), (∀ k ∈ ks, k.Ok) → runToks e' st ks = some acts →
    Chain bs hb e e' n st (ks.zip acts) := by
  induction ks with
  | nil => intro st acts _ _; exact .nil _
  | cons k ks ih =>
    intro st acts hk h
    unfold runToks at h
    cases hn : k.next e' st with
    | none => rw [hn] at h; cases h
    | some x =>
      obtain ⟨act, st'⟩ := x
      rw [hn] at h
      simp only [Option.map_eq_some_iff] at h
      obtain ⟨acts', h1, rfl⟩ := h
      have ih := ih st' acts' (fun k h => hk k (by simp [h])) h1
      have hk0 := hk k (by simp)
      have behind : ∀ x ∈ (ks.zip acts').head?, (∃ r, x.1.next e' st' = some r) ∧ x.1.Ok := by
        intro x hx
        cases ks with
        | nil => simp at hx
        | cons k2 ks =>
          cases acts' with
          | nil => simp at hx
          | cons a2 acts' =>
            simp only [List.zip_cons_cons, List.head?_cons, Option.mem_def, Option.some.injEq] at hx
            subst hx
            refine ⟨?_, hk k2 (by simp)⟩
            unfold runToks at h1
            cases hk2 : k2.next e' st' with
            | none => rw [hk2] at h1; cases h1
            | some r => exact ⟨r, rfl⟩
      rw [List.zip_cons_cons]
      have plain : Turns bs hb e e' n (fun _ => True) st k act st' → Chain bs hb e e' n st ((k, act) :: ks.zip acts') := fun ht =>
        .cons (B := fun _ => True) hk0.starts ht (fun _ _ _ _ => trivial) trivial (fun _ _ _ _ _ => trivial) ih
      cases k with
      | «at» =>
        simp only [Tok.next] at hn
        split at hn
        · rename_i hs
          cases hn
          exact plain fun t p cs hp h _ _ => by cases hp; exact Rd.at' he hs h
        · cases hn
      | slash desc =>
        have hn' := hn
        simp only [Tok.next] at hn
        split at hn
        · rename_i hs
          cases hn
          cases desc with
          | true => exact plain fun t p cs hp h _ _ => by cases hp; exact Rd.slashes he hs h
          | false =>
            refine .cons (B := fun cs => first cs ≠ 47) hk0.starts ?_ (fun bl cs hb hc => hb.first (by decide) hc) (by decide) ?_ ih
            · intro t p cs hp h hc _
              cases hp
              exact Rd.slash he hs h hc
            · intro x hx p r hp
              obtain ⟨⟨r', b1⟩, b2⟩ := behind x hx
              rcases tok_text hp with ⟨nm, h2⟩ | ⟨c, q, rfl, hc⟩
              · rw [h2] at hp b2
                exact (TName.first b2 hp r).2.2
              · intro h3
                rw [List.cons_append, first_cons] at h3
                subst h3
                have b3 := next_slash hn' b1
                cases hx1 : x.1 with
                | slash d => exact b3 d hx1
                | «at» => rw [hx1] at hp; cases hp
                | name nm =>
                  rw [hx1] at hp b2
                  exact (TName.first b2 hp r).2.2 rfl
                | cond c => rw [hx1] at hp; obtain ⟨q', h4⟩ := cond_text hp; cases h4
                | content => rw [hx1] at hp; obtain ⟨b, -, h4⟩ := hp; cases h4
                | close => rw [hx1] at hp; cases hp
        · cases hn
      | cond c =>
        simp only [Tok.next] at hn
        split at hn
        · rename_i hs
          cases hn
          refine plain fun t p cs hp h _ hl => ?_
          obtain ⟨q, h1⟩ := cond_text hp
          have : first (p ++ cs) = 91 := by rw [h1]; rfl
          rw [this]
          exact Rd.cond he hs hk0 hp h hl
        · cases hn
      | content =>
        simp only [Tok.next] at hn
        split at hn
        · rename_i hs
          cases hn
          refine plain fun t p cs hp h _ hl => ?_
          obtain ⟨b, h1, rfl⟩ := hp
          simp only [List.length_append, List.length_cons, List.length_nil] at hl
          exact Rd.content he h1 (by omega) hs (by simpa using h)
        · cases hn
      | close =>
        simp only [Tok.next] at hn
        split at hn
        · rename_i hs
          cases hn
          exact plain fun t p cs hp h _ _ => by cases hp; exact Rd.close he hs h
        · cases hn
      | name nm =>
        have hn' := hn
        simp only [Tok.next] at hn
        split at hn
        · rename_i hs
          cases hn
          refine .cons (B := fun cs => isId cs = false) hk0.starts ?_ (fun bl cs hb hc => hb.isId hc) (by decide) ?_ ih
          · intro t p cs hp h hc hl
            exact Rd.name he hs hk0 hp h hc hl
          · intro x hx p r hp
            obtain ⟨⟨r', b1⟩, -⟩ := behind x hx
            have b3 := next_name hn' b1
            rcases tok_text hp with ⟨nm, h2⟩ | ⟨c, q, rfl, hc⟩
            · exact (b3 nm h2).elim
            · rw [List.cons_append, isId_cons]
              have : ∀ c ∈ [47, 91, 64, 40, 126], isId [c] = false := by decide
              exact this c hc
        · cases hn

/-! ### The calls of expressions -/

def sepActs (sep : Option Bool) : List Act := sep.toList.map fun d => if d then .call .follow else .none

def stepActs (e' : Enc) (s : TStep) : List Act :=
  sepActs s.sep ++ s.name.toList.map (nameAct e' .SelectTag) ++ s.conds.map fun c => .call (c.call e')

def endActs (e' : Enc) : TEnd → List Act
  | .nothing => []
  | .slash desc => sepActs (some desc)
  | .attribute sep name => sepActs sep ++ [.none] ++ name.toList.map (nameAct e' .SelectAttribute)
  | .content sep => sepActs sep ++ [.call .content]
  | .closeTag => [.call .closeTag]

/-- The calls for an expression. -/
def pathActs (e' : Enc) (p : TPath) : List Act := p.steps.flatMap (stepActs e') ++ endActs e' p.final

/-- The states where a step or the end of the expression can begin. -/
abbrev Base (st : PState) : Prop := st = .SelectStart ∨ st = .SelectTagId ∨ st = .SelectCondition

theorem runToks_conds (cs : List TCond) {ks : List Tok} {acts : List Act} (h : ∀ st, Base st → runToks e' st ks = some acts) :
    ∀ st, (Base st ∨ st = .SelectTag ∧ cs ≠ []) →
    runToks e' st (cs.map .cond ++ ks) = some ((cs.map fun c => .call (c.call e')) ++ acts) := by
  induction cs with
  | nil =>
    intro st hs
    rcases hs with hs | ⟨-, hs⟩
    · exact h st hs
    · exact (hs rfl).elim
  | cons c cs ih =>
    intro st hs
    have hs' : st = .SelectStart ∨ st = .SelectTag ∨ st = .SelectTagId ∨ st = .SelectCondition := by
      rcases hs with (h | h | h) | ⟨h, -⟩ <;> simp [h]
    simp only [List.map_cons, List.cons_append]
    unfold runToks
    have : (Tok.cond c).next e' st = some (.call (c.call e'), .SelectCondition) := by
      simp only [Tok.next]; rw [if_pos hs']
    rw [this]
    simp only []
    rw [ih _ (.inl (.inr (.inr rfl)))]
    rfl

theorem runToks_sep (sep : Option Bool) {ks : List Tok} {acts : List Act} (hs : Base st)
    (h : runToks e' (if sep = none then st else .SelectTag) ks = some acts) :
    runToks e' st (sepToks sep ++ ks) = some (sepActs sep ++ acts) := by
  cases sep with
  | none => exact h
  | some d =>
    change runToks e' .SelectTag ks = some acts at h
    show runToks e' st (.slash d :: ks) = some ((if d then .call .follow else .none) :: acts)
    unfold runToks
    have : (Tok.slash d).next e' st = some (if d then .call .follow else .none, .SelectTag) := by
      simp only [Tok.next]; rw [if_pos hs]
    rw [this]
    simp only []
    rw [h]
    rfl

theorem nameAct_start (nm : TName) : nameAct e' .SelectStart nm = nameAct e' .SelectTag nm := by
  cases nm <;> rfl

theorem runToks_step {s : TStep} (hk : s.Ok) {ks : List Tok} {acts : List Act} (h : ∀ st, Base st → runToks e' st ks = some acts)
    (hs : Base st) (h0 : s.sep = none → st = .SelectStart) :
    runToks e' st (s.toks ++ ks) = some (stepActs e' s ++ acts) := by
  unfold TStep.toks stepActs
  rw [List.append_assoc, List.append_assoc, List.append_assoc, List.append_assoc]
  refine runToks_sep _ hs ?_
  have hst : (if s.sep = none then st else .SelectTag) = .SelectStart ∨ (if s.sep = none then st else PState.SelectTag) = .SelectTag := by
    split
    · exact .inl (h0 ‹_›)
    · exact .inr rfl
  generalize (if s.sep = none then st else PState.SelectTag) = st1 at hst
  cases hn : s.name with
  | none =>
    refine runToks_conds s.conds h st1 ?_
    rcases hst with rfl | rfl
    · exact .inl (.inl rfl)
    · exact .inr ⟨rfl, hk.2.2 hn⟩
  | some nm =>
    show runToks e' st1 (.name nm :: (s.conds.map .cond ++ ks)) = some (nameAct e' .SelectTag nm :: _)
    unfold runToks
    have : (Tok.name nm).next e' st1 = some (nameAct e' .SelectTag nm, .SelectTagId) := by
      simp only [Tok.next]
      rcases hst with rfl | rfl
      · rw [nameAct_start]; rfl
      · rfl
    rw [this]
    simp only []
    rw [runToks_conds s.conds h _ (.inl (.inr (.inl rfl)))]
    rfl

theorem runToks_end (f : TEnd) (hs : Base st) : runToks e' st f.toks = some (endActs e' f) := by
  have any : ∀ sep : Option Bool, (if sep = none then st else PState.SelectTag) = .SelectStart ∨ (if sep = none then st else PState.SelectTag) = .SelectTag ∨
      (if sep = none then st else PState.SelectTag) = .SelectTagId ∨ (if sep = none then st else PState.SelectTag) = .SelectCondition := by
    intro sep
    split
    · rcases hs with h | h | h <;> simp [h]
    · simp
  cases f with
  | nothing => rfl
  | slash desc =>
    have := runToks_sep (e' := e') (some desc) (ks := []) (acts := []) hs rfl
    simpa [TEnd.toks, endActs, sepToks] using this
  | «attribute» sep name =>
    simp only [TEnd.toks, endActs]
    rw [List.append_assoc, List.append_assoc]
    refine runToks_sep _ hs ?_
    have hst := any sep
    generalize (if sep = none then st else PState.SelectTag) = st1 at hst
    show runToks e' st1 (.at :: _) = some (.none :: _)
    unfold runToks
    have : Tok.at.next e' st1 = some (.none, .SelectAttribute) := by
      simp only [Tok.next]; rw [if_pos hst]
    rw [this]
    cases name with
    | none => rfl
    | some nm => rfl
  | content sep =>
    unfold TEnd.toks endActs
    refine runToks_sep _ hs ?_
    have hst := any sep
    generalize (if sep = none then st else PState.SelectTag) = st1 at hst
    unfold runToks
    have : Tok.content.next e' st1 = some (.call .content, .SelectContent) := by
      simp only [Tok.next]; rw [if_pos hst]
    rw [this]
    rfl
  | closeTag =>
    show runToks e' st [.close] = some [.call .closeTag]
    unfold runToks
    have : Tok.close.next e' st = some (.call .closeTag, .SelectContent) := by
      simp only [Tok.next]; rw [if_pos hs]
    rw [this]
    rfl

/-- The parser comes through every expression of the grammar. -/
theorem runToks_path {p : TPath} (ho : p.Ok) : runToks e' .SelectStart p.toks = some (pathActs e' p) := by
  obtain ⟨h1, h2, -⟩ := ho
  have : ∀ (ss : List TStep), (∀ s ∈ ss, s.Ok) → (∀ s ∈ ss, s.sep ≠ none) → ∀ st, Base st →
      runToks e' st (ss.flatMap TStep.toks ++ p.final.toks) = some (ss.flatMap (stepActs e') ++ endActs e' p.final) := by
    intro ss
    induction ss with
    | nil => intro _ _ st hs; exact runToks_end _ hs
    | cons s ss ih =>
      intro k1 k2 st hs
      rw [List.flatMap_cons, List.flatMap_cons, List.append_assoc, List.append_assoc]
      exact runToks_step (k1 s (by simp)) (ih (fun s hs => k1 s (by simp [hs])) (fun s hs => k2 s (by simp [hs]))) hs
        (fun h => (k2 s (by simp) h).elim)
  unfold TPath.toks pathActs
  cases hss : p.steps with
  | nil => exact runToks_end _ (.inl rfl)
  | cons s ss =>
    rw [hss] at h1 h2
    rw [List.flatMap_cons, List.flatMap_cons, List.append_assoc, List.append_assoc]
    exact runToks_step (h1 s (by simp)) (this ss (fun s hs => h1 s (by simp [hs])) h2) (.inl rfl) (fun _ => rfl)

theorem toks_ok {p : TPath} (ho : p.Ok) : ∀ k ∈ p.toks, k.Ok := by
  intro k hk
  obtain ⟨h1, -, h3⟩ := ho
  have sep : ∀ {sep : Option Bool}, k ∈ sepToks sep → k.Ok := by
    intro sep h
    simp only [sepToks, List.mem_map] at h
    obtain ⟨d, -, rfl⟩ := h
    trivial
  rcases List.mem_append.1 hk with hk | hk
  · obtain ⟨s, hs, hk⟩ := List.mem_flatMap.1 hk
    obtain ⟨g1, g2, -⟩ := h1 s hs
    rcases List.mem_append.1 hk with hk | hk
    · rcases List.mem_append.1 hk with hk | hk
      · exact sep hk
      · simp only [List.mem_map, Option.mem_toList] at hk
        obtain ⟨nm, h4, rfl⟩ := hk
        exact g1 nm h4
    · obtain ⟨c, h4, rfl⟩ := List.mem_map.1 hk
      exact g2 c h4
  · cases hf : p.final with
    | nothing => rw [hf] at hk; cases hk
    | slash d => rw [hf] at hk; exact sep (sep := some d) hk
    | closeTag => rw [hf] at hk; simp [TEnd.toks] at hk; subst hk; trivial
    | content s =>
      rw [hf] at hk
      rcases List.mem_append.1 hk with hk | hk
      · exact sep hk
      · simp at hk; subst hk; trivial
    | «attribute» s name =>
      rw [hf] at hk h3
      rcases List.mem_append.1 hk with hk | hk
      · rcases List.mem_append.1 hk with hk | hk
        · exact sep hk
        · simp at hk; subst hk; trivial
      · simp only [List.mem_map, Option.mem_toList] at hk
        obtain ⟨nm, h4, rfl⟩ := hk
        exact h3 nm h4

/-- The calls a list of acts stands for. -/
def actCalls : List Act → List PElem.Call
  | [] => []
  | .call c :: as => c :: actCalls as
  | _ :: as => actCalls as

/-- No alternatives. -/
def Single (as : List Act) : Prop := ∀ a ∈ as, a = .none ∨ ∃ c, a = .call c

theorem actCalls_append {as bs : List Act} : actCalls (as ++ bs) = actCalls as ++ actCalls bs := by
  induction as with
  | nil => rfl
  | cons a as ih => cases a <;> simp [actCalls, ih]

theorem actCalls_call (cs : List PElem.Call) : actCalls (cs.map .call) = cs := by
  induction cs with
  | nil => rfl
  | cons a as ih => simp [actCalls, ih]

theorem Single.append {as bs : List Act} (h1 : Single as) (h2 : Single bs) : Single (as ++ bs) := by
  intro a ha
  rcases List.mem_append.1 ha with ha | ha
  · exact h1 a ha
  · exact h2 a ha

theorem sepActs_calls (sep : Option Bool) : actCalls (sepActs sep) = sepCalls sep ∧ Single (sepActs sep) := by
  cases sep with
  | none => exact ⟨rfl, by simp [sepActs, Single]⟩
  | some d => cases d <;> exact ⟨rfl, by simp [sepActs, Single]⟩

theorem nameActs_calls {name : Option TName} (h : ∀ l, name ≠ some (.alt l)) {st : PState} {mk : Option (List Byte) → PElem.Call}
    (hm : ∀ k, (if st = .SelectAttribute then PElem.Call.attribute k else .tag k) = mk k) :
    actCalls (name.toList.map (nameAct e' st)) = (name.toList.map fun nm => mk (nm.key e')) ∧ Single (name.toList.map (nameAct e' st)) := by
  cases name with
  | none => exact ⟨rfl, by simp [Single]⟩
  | some nm =>
    cases nm with
    | any => exact ⟨by simp [actCalls, nameAct, TName.key, ← hm], by simp [Single, nameAct]⟩
    | one cs => exact ⟨by simp [actCalls, nameAct, TName.key, ← hm], by simp [Single, nameAct]⟩
    | alt l => exact (h l rfl).elim

theorem pathActs_calls {p : TPath} (hp : p.Simple) : actCalls (pathActs e' p) = p.calls e' ∧ Single (pathActs e' p) := by
  have h1 : ∀ s ∈ p.steps, actCalls (stepActs e' s) = s.calls e' ∧ Single (stepActs e' s) := by
    intro s hs
    have hc : (s.conds.map fun c => Act.call (c.call e')) = (s.conds.map (TCond.call e')).map .call := by simp [Function.comp_def]
    obtain ⟨g1, g2⟩ := sepActs_calls s.sep
    obtain ⟨g3, g4⟩ := nameActs_calls (e' := e') (name := s.name) (fun l h => hp.1 s hs l h) (st := .SelectTag) (mk := .tag) (fun _ => rfl)
    unfold stepActs TStep.calls
    rw [hc]
    refine ⟨by rw [actCalls_append, actCalls_append, g1, g3, actCalls_call], (g2.append g4).append ?_⟩
    intro a ha
    obtain ⟨c, -, rfl⟩ := List.mem_map.1 ha
    exact .inr ⟨_, rfl⟩
  have h2 : actCalls (endActs e' p.final) = p.final.calls e' ∧ Single (endActs e' p.final) := by
    have hs := hp.2
    cases hf : p.final with
    | nothing => exact ⟨rfl, by simp [endActs, Single]⟩
    | slash d => exact sepActs_calls _
    | «attribute» sep name =>
      rw [hf] at hs
      obtain ⟨g1, g2⟩ := sepActs_calls sep
      obtain ⟨g3, g4⟩ := nameActs_calls (e' := e') (name := name) (fun l h => hs sep l (by rw [h])) (st := .SelectAttribute) (mk := .attribute) (fun _ => rfl)
      unfold endActs TEnd.calls
      refine ⟨by rw [actCalls_append, actCalls_append, g1, g3]; simp [actCalls], (g2.append ?_).append g4⟩
      simp [Single]
    | content sep =>
      obtain ⟨g1, g2⟩ := sepActs_calls sep
      exact ⟨by unfold endActs TEnd.calls; rw [actCalls_append, g1]; rfl, g2.append (by simp [Single])⟩
    | closeTag => exact ⟨rfl, by simp [endActs, Single]⟩
  have h3 : ∀ ss : List TStep, (∀ s ∈ ss, s ∈ p.steps) → actCalls (ss.flatMap (stepActs e')) = ss.flatMap (TStep.calls e') ∧ Single (ss.flatMap (stepActs e')) := by
    intro ss
    induction ss with
    | nil => intro _; exact ⟨rfl, by simp [Single]⟩
    | cons s ss ih =>
      intro hss
      obtain ⟨i1, i2⟩ := ih fun s hs => hss s (by simp [hs])
      obtain ⟨g1, g2⟩ := h1 s (hss s (by simp))
      simp only [List.flatMap_cons]
      exact ⟨by rw [actCalls_append, g1, i1], g2.append i2⟩
  obtain ⟨g1, g2⟩ := h3 p.steps fun _ h => h
  exact ⟨by unfold pathActs TPath.calls; rw [actCalls_append, g1, h2.1], g2.append h2.2⟩

theorem forEach_one (c : PElem.Call) (p : PElem) (a : Atm) : forEach e' n c [p] a =
    match PElem.call e' n p c a with
    | (.ok q, a') => (.ok [q], a')
    | (.stop er, a') => (.stop er, a') := by
  unfold forEach
  rw [M.bind_run]
  rcases PElem.call e' n p c a with ⟨r | r, a'⟩ <;> rfl

/-- An outcome without its value. -/
def void {α σ : Type} (r : Res α × σ) : Res Unit × σ :=
  match r with
  | (.ok _, a) => (.ok (), a)
  | (.stop er, a) => (.stop er, a)

/-- The acts are the calls of the building interface. -/
theorem runActs_calls {type : Int} (as : List Act) (hs : Single as) : ∀ (p : PElem) (a : Atm), runActs e' n type as [p] a =
    void (PElem.calls e' n p (actCalls as ++ [.assign type]) a) := by
  induction as with
  | nil =>
    intro p a
    show (forEach e' n (.assign type) [p] >>= fun _ => pure ()) a = void ((PElem.call e' n p (.assign type) >>= fun q => PElem.calls e' n q []) a)
    rw [M.bind_run, forEach_one, M.bind_run]
    rcases PElem.call e' n p (.assign type) a with ⟨r | r, a'⟩ <;> rfl
  | cons x as ih =>
    intro p a
    have ih := ih (fun a ha => hs a (by simp [ha]))
    rcases hs x (by simp) with rfl | ⟨c, rfl⟩
    · show (Act.run e' n [p] .none >>= fun qs => runActs e' n type as qs) a = _
      rw [M.bind_ok (show Act.run e' n [p] .none a = (.ok [p], a) from rfl)]
      exact ih p a
    · show (forEach e' n c [p] >>= fun qs => runActs e' n type as qs) a =
        void ((PElem.call e' n p c >>= fun q => PElem.calls e' n q (actCalls as ++ [.assign type])) a)
      rw [M.bind_run, forEach_one, M.bind_run]
      rcases PElem.call e' n p c a with ⟨r | r, a'⟩
      · exact ih r a'
      · rfl

end TW
