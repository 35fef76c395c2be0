import Verif.Spec.Items
import Verif.Proofs.Session
import Verif.Proofs.MachineShape

/-!
# The token reader delivers the value of the text
-/

namespace TW

open Spec

namespace Mach

variable {e : Enc} {f : Nat → Byte} {mask : Nat}

/-- The characters `cs` stand at `k` and end before `k'`. -/
def Span (e : Enc) (f : Nat → Byte) : Nat → List Ch → Nat → Prop
  | k, [], k' => k = k'
  | k, c :: cs, k' => c = chAt e f k ∧ Span e f (k + ulen e f k) cs k'

theorem span_chars (n : Nat) : ∀ k, Span e f k (chars e f k n) (offs e f k n) := by
  induction n with
  | zero => intro k; exact rfl
  | succ n ih =>
    intro k
    refine ⟨rfl, ?_⟩
    have : offs e f k (n + 1) = offs e f (k + ulen e f k) n := by
      clear ih
      induction n with
      | zero => rfl
      | succ n ih => rw [offs, ih]; rfl
    rw [this]
    exact ih _

theorem Span.append {k k1 k2 : Nat} {cs ds : List Ch} (h : Span e f k cs k1) (h' : Span e f k1 ds k2) :
    Span e f k (cs ++ ds) k2 := by
  induction cs generalizing k with
  | nil => cases h; exact h'
  | cons c cs ih => exact ⟨h.1, ih h.2⟩

theorem Span.split {k k2 : Nat} {cs ds : List Ch} (h : Span e f k (cs ++ ds) k2) :
    ∃ k1, Span e f k cs k1 ∧ Span e f k1 ds k2 := by
  induction cs generalizing k with
  | nil => exact ⟨k, rfl, h⟩
  | cons c cs ih =>
    obtain ⟨k1, h1, h2⟩ := ih h.2
    exact ⟨k1, ⟨h.1, h1⟩, h2⟩

/-- `B` is `A` but for the token reader: output, position in the source and token state. -/
structure Like (A B : Cfg) : Prop where
  state : B.state = A.state
  error : B.error = A.error
  tokenpos : B.tokenpos = A.tokenpos
  output : B.output = A.output
  map : B.entityMap = A.entityMap
  addr : B.bufAddr = A.bufAddr

theorem Like.refl (A : Cfg) : Like A A := ⟨rfl, rfl, rfl, rfl, rfl, rfl⟩

theorem Like.trans {A B C : Cfg} (h : Like A B) (h' : Like B C) : Like A C :=
  ⟨h'.1.trans h.1, h'.2.trans h.2, h'.3.trans h.3, h'.4.trans h.4, h'.5.trans h.5, h'.6.trans h.6⟩

/-- The token reader is at a character of a token. -/
structure Tok (A : Cfg) (cr : Bool) : Prop where
  id : A.tok.id = .ParsingToken
  cr : A.tok.eolCR = cr
  pos : A.tok.pos = 0
  value : A.tok.value = 0
  buf : A.tok.buf.length = 16

/-- The token reader goes from `A` over the characters `cs` and prints `bs`. -/
def Reads1 (e : Enc) (f : Nat → Byte) (mask : Nat) (A : Cfg) (k : Nat) (bs : List Byte) (cr : Bool) : Prop :=
  ∃ m B, Steps e f mask m A B ∧ Like A B ∧ B.src = k ∧ B.out = A.out ++ bs ∧ Tok B cr

theorem step_tok {isTok : Cc → Bool} {arg : ElementType} {A : Cfg} (hr : Reads mask A.state isTok arg)
    (h : A.tok.id ≠ .ParsingDone) : step e f mask A = tokStep e f isTok A := by
  obtain ⟨op, h1, h2, h3⟩ := hr
  unfold step
  simp only [h1, h2, if_neg h, if_pos h3]

/-- A character of the token. -/
theorem ch_run {isTok : Cc → Bool} {arg : ElementType} {A : Cfg} {cr : Bool} (hr : Reads mask A.state isTok arg)
    (ht : Tok A cr) (hc : isTok (cls e f A) = true) :
    Reads1 e f mask A (A.src + ulen e f A.src)
      (if uasc e f A.src = 13 then A.output.print 10
       else if uasc e f A.src = 10 then (if cr then [] else A.output.print 10)
       else (chAt e f A.src).deliver e A.output)
      (decide (uasc e f A.src = 13)) := by
  have h1 : step e f mask A = (none, adv e f (charStep e f A)) := by
    rw [step_tok hr (by rw [ht.id]; simp)]
    unfold tokStep
    rw [ht.id]
    simp only [hc, if_true]
  have hasc : asc e f A = 13 ↔ uasc e f A.src = 13 := by unfold asc; split <;> omega
  have hasc2 : asc e f A = 10 ↔ uasc e f A.src = 10 := by unfold asc; split <;> omega
  refine ⟨1, _, .one h1, ?_⟩
  unfold charStep
  simp only [hasc, hasc2]
  by_cases h13 : uasc e f A.src = 13
  · simp only [h13, if_true, decide_true]
    exact ⟨⟨rfl, rfl, rfl, rfl, rfl, rfl⟩, rfl, by simp [adv, tokTo, pushes], ht.id, rfl, ht.pos, ht.value, ht.buf⟩
  · simp only [h13, if_false, decide_false]
    by_cases h10 : uasc e f A.src = 10
    · simp only [h10, if_true, ht.cr]
      cases cr
      · exact ⟨⟨rfl, rfl, rfl, rfl, rfl, rfl⟩, rfl, by simp [adv, tokTo, pushes], ht.id, rfl, ht.pos, ht.value, ht.buf⟩
      · exact ⟨⟨rfl, rfl, rfl, rfl, rfl, rfl⟩, rfl, by simp [adv, tokTo], ht.id, rfl, ht.pos, ht.value, ht.buf⟩
    · simp only [h10, if_false]
      exact ⟨⟨rfl, rfl, rfl, rfl, rfl, rfl⟩, rfl, rfl, ht.id, rfl, ht.pos, ht.value, ht.buf⟩

/-! ## References -/

/-- The token reader has stored the characters `ns` of an entity. -/
structure Ent (A : Cfg) (id : TokId) (ns : List Byte) : Prop where
  id : A.tok.id = id
  pos : A.tok.pos = ns.length
  buf : A.tok.buf.length = 16
  take : A.tok.buf.take ns.length = ns

theorem take_set {bs ns : List Byte} {a : Byte} (h : bs.take ns.length = ns) (hl : ns.length < bs.length) :
    (bs.set ns.length a).take (ns.length + 1) = ns ++ [a] := by
  have h1 : (bs.set ns.length a).take ns.length = ns := by
    rw [List.take_set_of_le (Nat.le_refl _), h]
  rw [List.take_add_one, h1]
  simp [hl]

theorem asc_of {A : Cfg} {a : Byte} (h : uasc e f A.src = a) (ha : a < 128) : asc e f A = a := by
  unfold asc
  rw [h, if_pos ha]

theorem cls_any (a : Byte) (h : nameChar a = true ∨ a = 59) : controlCharMap a = .Any := by
  have h1 : a < 128 := by
    rcases h with h | h
    · simp only [nameChar, Bool.and_eq_true, decide_eq_true_eq] at h; omega
    · omega
  have : ∀ a : _root_.Fin 128, nameChar a.1 = true ∨ a.1 = 59 → controlCharMap a.1 = .Any := by decide +kernel
  exact this ⟨a, h1⟩ h

theorem name_lt {a : Byte} (h : nameChar a = true) : a < 128 ∧ a ≠ 59 ∧ 0 < a := by
  simp only [nameChar, Bool.and_eq_true, decide_eq_true_eq] at h
  refine ⟨h.1.2, ?_, by omega⟩
  rintro rfl
  exact absurd h.2 (by decide)

theorem cls_any_iff (a : Byte) (ha : a < 256) : controlCharMap a = .Any ↔ nameChar a = true ∨ a = 59 := by
  have : ∀ a : _root_.Fin 256, controlCharMap a.1 = .Any ↔ nameChar a.1 = true ∨ a.1 = 59 := by decide +kernel
  exact this ⟨a, ha⟩

/-- The characters of a name are stored. -/
theorem name_run {isTok : Cc → Bool} {arg : ElementType} (cs : List Ch) : ∀ {A : Cfg} {ns : List Byte} {k : Nat},
    Reads mask A.state isTok arg → Ent A .ParsingNamedEntity ns → Span e f A.src cs k →
    (∀ c ∈ cs, nameChar c.asc = true) → ns.length + cs.length ≤ 15 →
    ∃ m B, Steps e f mask m A B ∧ Like A B ∧ B.src = k ∧ B.out = A.out ∧
      Ent B .ParsingNamedEntity (ns ++ cs.map Ch.asc) := by
  induction cs with
  | nil =>
    intro A ns k hr ha hs hn hl
    cases hs
    exact ⟨0, A, .refl A, .refl A, rfl, rfl, by simpa using ha⟩
  | cons c cs ih =>
    intro A ns k hr ha hs hn hl
    obtain ⟨rfl, hs⟩ := hs
    have h1 := hn _ (by simp : chAt e f A.src ∈ _)
    have h1' : nameChar (uasc e f A.src) = true := h1
    have h2 := name_lt h1'
    have hasc : asc e f A = uasc e f A.src := asc_of rfl h2.1
    simp only [List.length_cons] at hl
    have hstep : step e f mask A = (none, adv e f (store (uasc e f A.src) A)) := by
      rw [step_tok hr (by rw [ha.id]; simp)]
      unfold tokStep
      rw [ha.id]
      simp only
      rw [hasc, if_pos ⟨by rw [ha.pos]; omega, h2.2.1, cls_any _ (.inl h1')⟩]
    have hb : Ent (adv e f (store (uasc e f A.src) A)) .ParsingNamedEntity (ns ++ [uasc e f A.src]) := by
      refine ⟨ha.id, ?_, ?_, ?_⟩
      · simp [adv, store, tokTo, ha.pos]
      · simp [adv, store, tokTo, ha.buf]
      · have := take_set (a := uasc e f A.src) ha.take (by rw [ha.buf]; omega)
        simp only [adv, store, tokTo, ha.pos, List.length_append, List.length_cons, List.length_nil]
        exact this
    obtain ⟨m, B, g1, g2, g3, g4, g5⟩ := ih (A := adv e f (store (uasc e f A.src) A)) (k := k) hr hb hs
      (fun c hc => hn c (by simp [hc])) (by simp; omega)
    refine ⟨m + 1, B, .cons hstep g1, ⟨g2.1, g2.2, g2.3, g2.4, g2.5, g2.6⟩, g3, g4, ?_⟩
    rw [List.append_assoc] at g5
    exact g5

/-- The ampersand. -/
theorem amp_run {isTok : Cc → Bool} {arg : ElementType} {A : Cfg} {cr : Bool} (hr : Reads mask A.state isTok arg)
    (ht : Tok A cr) (hc : isTok .Amp = false) (ha : uasc e f A.src = 38) :
    ∃ B, step e f mask A = (none, B) ∧ Like A B ∧ B.src = A.src + ulen e f A.src ∧ B.out = A.out ∧
      B.tok = { A.tok with id := .ParsingEntity } := by
  have hcls : cls e f A = .Amp := by unfold cls; rw [ha]; decide +kernel
  refine ⟨idTo .ParsingEntity (adv e f A), ?_, ⟨rfl, rfl, rfl, rfl, rfl, rfl⟩, rfl, rfl, rfl⟩
  rw [step_tok hr (by rw [ht.id]; simp)]
  unfold tokStep
  rw [ht.id]
  simp [hcls, hc]

/-- The name of an entity begins. -/
theorem named_start {isTok : Cc → Bool} {arg : ElementType} {A : Cfg} {cr : Bool} (hr : Reads mask A.state isTok arg)
    (ht : Tok A cr) (hc : isTok .Amp = false) (ha : uasc e f A.src = 38)
    (hn : uasc e f (A.src + ulen e f A.src) ≠ 35) :
    ∃ m B, Steps e f mask m A B ∧ Like A B ∧ B.src = A.src + ulen e f A.src ∧ B.out = A.out ∧
      Ent B .ParsingNamedEntity [] := by
  obtain ⟨B, h1, h2, h3, h4, h5⟩ := amp_run hr ht hc ha
  have hasc : asc e f B ≠ 35 := by
    unfold asc
    rw [h3]
    split <;> omega
  have hstep : step e f mask B = (none, idTo .ParsingNamedEntity B) := by
    rw [step_tok (by rw [h2.state]; exact hr) (by rw [h5]; simp)]
    unfold tokStep
    rw [h5]
    simp only [if_neg hasc]
  refine ⟨2, _, .cons h1 (.one hstep), ⟨h2.1, h2.2, h2.3, h2.4, h2.5, h2.6⟩, h3, h4, rfl, ?_, ?_, rfl⟩
  · simp [idTo, tokTo, h5, ht.pos]
  · simp [idTo, tokTo, h5, ht.buf]

theorem takeWhile_name {ns bs : List Byte} (h : ∀ a ∈ ns, a ≠ 0) (ht : bs.take ns.length = ns) (hl : ns.length < bs.length) :
    (bs.set ns.length 0).takeWhile (· ≠ 0) = ns := by
  have h1 : bs.set ns.length 0 = ns ++ 0 :: bs.drop (ns.length + 1) := by
    have := List.set_eq_take_append_cons_drop (l := bs) (i := ns.length) (a := 0)
    rw [this, if_pos hl, ht]
  rw [h1, List.takeWhile_append_of_pos (by simpa using h)]
  simp

theorem entities_name : ∀ x ∈ entities, (∀ a ∈ codes x.1, nameChar a = true) ∧ (codes x.1).length ≤ 15 ∧
    (codes x.1).head? ≠ some 35 ∧ codes x.1 ≠ [] ∧ Scanner.predefinedEntity (codes x.1) = some x.2 := by decide +kernel

theorem map_asc_split {cs : List Ch} {xs ys : List Byte} (h : cs.map Ch.asc = xs ++ ys) :
    ∃ as bs, cs = as ++ bs ∧ as.map Ch.asc = xs ∧ bs.map Ch.asc = ys := by
  exact List.map_eq_append_iff.1 h

theorem span_last {k k' : Nat} {bs : List Ch} {b : Byte} (h : Span e f k bs k') (hb : bs.map Ch.asc = [b]) :
    uasc e f k = b ∧ k + ulen e f k = k' := by
  cases bs with
  | nil => cases hb
  | cons c cs =>
    simp only [List.map_cons, List.cons.injEq, List.map_eq_nil_iff] at hb
    obtain ⟨rfl, rfl⟩ := hb
    exact ⟨by rw [h.1]; rfl, h.2⟩

/-- A reference by name. -/
theorem name_ref_run {isTok : Cc → Bool} {arg : ElementType} {A : Cfg} {cr : Bool} (hr : Reads mask A.state isTok arg)
    (ht : Tok A cr) (hc : isTok .Amp = false) {cs : List Ch} {k : Nat} (hs : Span e f A.src cs k) {ns : List Byte} {c : UChar}
    (hcs : cs.map Ch.asc = 38 :: ns ++ [59]) (n1 : ∀ a ∈ ns, nameChar a = true) (n2 : ns.length ≤ 15)
    (n3 : ns.head? ≠ some 35) (n5 : entityChar A ns = some c) :
    Reads1 e f mask A k (A.output.print c) false := by
  cases cs with
  | nil => cases hcs
  | cons c0 cs =>
    simp only [List.map_cons, List.cons_append, List.cons.injEq] at hcs
    obtain ⟨h38, hcs⟩ := hcs
    obtain ⟨rfl, hs⟩ := hs
    obtain ⟨as, bs, rfl, h1, h2⟩ := map_asc_split hcs
    obtain ⟨k1, hs1, hs2⟩ := hs.split
    have h35 : uasc e f (A.src + ulen e f A.src) ≠ 35 := by
      cases as with
      | nil =>
        cases hs1
        rw [(span_last hs2 h2).1]
        decide
      | cons d ds =>
        have := hs1.1
        rw [← h1] at n3
        simp only [List.map_cons, List.head?_cons, this] at n3
        intro h
        exact n3 (congrArg some h)
    obtain ⟨m1, B1, g1, g2, g3, g4, g5⟩ := named_start hr ht hc h38 h35
    obtain ⟨m2, B2, f1, f2, f3, f4, f5⟩ := name_run as (A := B1) (by rw [g2.state]; exact hr) g5 (by rw [g3]; exact hs1)
      (by rw [← h1] at n1; intro c hc; exact n1 _ (List.mem_map_of_mem hc)) (by rw [← h1] at n2; simpa using n2)
    rw [List.nil_append, h1] at f5
    have hbs : ∃ b, bs = [b] ∧ b.asc = 59 := by
      cases bs with
      | nil => cases h2
      | cons b bs =>
        simp only [List.map_cons, List.cons.injEq, List.map_eq_nil_iff] at h2
        exact ⟨b, by rw [h2.2], h2.1⟩
    obtain ⟨b, rfl, hb⟩ := hbs
    obtain ⟨rfl, hs2⟩ := hs2
    cases hs2
    have hasc : asc e f B2 = 59 := asc_of (by rw [f3]; exact hb) (by omega)
    have hbuf : ((B2.tok.buf.set B2.tok.pos 0).takeWhile (· ≠ 0)) = ns := by
      rw [f5.pos]
      exact takeWhile_name (fun a ha => by have := (name_lt (n1 a ha)).2.2; omega) f5.take (by rw [f5.buf]; omega)
    have hstep : step e f mask B2 = (none, adv e f (initTok .ParsingToken (pushes [c]
        (tokTo (fun t => { t with buf := B2.tok.buf.set B2.tok.pos 0 }) B2)))) := by
      rw [step_tok (by rw [f2.state, g2.state]; exact hr) (by rw [f5.id]; simp)]
      unfold tokStep
      rw [f5.id]
      simp only [hasc, ne_eq, not_true_eq_false, false_and, and_false, if_false, if_true]
      have : entityChar B2 ((B2.tok.buf.set B2.tok.pos 0).takeWhile (· ≠ 0)) = some c := by
        rw [hbuf, ← n5]
        unfold entityChar
        rw [(g2.trans f2).map, (g2.trans f2).addr]
      simp only [ne_eq] at this
      rw [this]
    have hl := g2.trans f2
    refine ⟨m1 + m2 + 1, _, (g1.trans f1).snoc hstep, ⟨hl.1, hl.2, hl.3, hl.4, hl.5, hl.6⟩, ?_, ?_, rfl, rfl, rfl, rfl, ?_⟩
    · simp [adv, initTok, tokTo, pushes, f3]
    · simp [adv, initTok, tokTo, pushes, f4, g4, hl.output]
    · simp [adv, initTok, tokTo, pushes, TokState.init, f5.buf]

/-- A reference by the name of a predefined entity. -/
theorem named_run {isTok : Cc → Bool} {arg : ElementType} {A : Cfg} {cr : Bool} (hr : Reads mask A.state isTok arg)
    (ht : Tok A cr) (hc : isTok .Amp = false) {cs : List Ch} {k : Nat} (hs : Span e f A.src cs k) {s : String} {c : UChar}
    (hx : (s, c) ∈ entities) (hcs : cs.map Ch.asc = 38 :: codes s ++ [59]) :
    Reads1 e f mask A k (A.output.print c) false := by
  obtain ⟨n1, n2, n3, -, n5⟩ := entities_name _ hx
  exact name_ref_run hr ht hc hs hcs n1 n2 n3 (by unfold entityChar; rw [n5])

theorem predefined_none {ns : List Byte} (h : ns ∉ entities.map (fun x => codes x.1)) :
    Scanner.predefinedEntity ns = none := by
  simp only [entities, List.map_cons, List.map_nil, List.mem_cons, List.not_mem_nil, or_false, not_or] at h
  unfold Scanner.predefinedEntity
  simp [codes] at *
  simp [h]

/-- An ampersand with the characters behind it that is no reference, as a name. -/
theorem lone_name_run {isTok : Cc → Bool} {arg : ElementType} {A : Cfg} {cr : Bool} (hr : Reads mask A.state isTok arg)
    (ht : Tok A cr) (hc : isTok .Amp = false) {cs : List Ch} {k : Nat} (hs : Span e f A.src cs k) {ns : List Byte}
    (hcs : cs.map Ch.asc = 38 :: ns) (hl : ns.length ≤ 15) (hn : ∀ a ∈ ns, nameChar a = true)
    (h35 : ns.head? ≠ some 35) (hx : uasc e f k ≠ 59) (hxn : nameChar (uasc e f k) = false ∨ ns.length = 15) :
    Reads1 e f mask A k ((38 :: ns).flatMap A.output.print) false := by
  cases cs with
  | nil => cases hcs
  | cons c0 cs =>
    simp only [List.map_cons, List.cons.injEq] at hcs
    obtain ⟨h38, rfl⟩ := hcs
    obtain ⟨rfl, hs⟩ := hs
    have h35' : uasc e f (A.src + ulen e f A.src) ≠ 35 := by
      cases cs with
      | nil =>
        cases hs
        rcases hxn with h | h
        · intro h'; rw [h'] at h; exact absurd h (by decide)
        · simp at h
      | cons d ds =>
        intro h
        apply h35
        rw [List.map_cons, List.head?_cons, hs.1]
        exact congrArg some h
    obtain ⟨m1, B1, g1, g2, g3, g4, g5⟩ := named_start hr ht hc h38 h35'
    obtain ⟨m2, B2, f1, f2, f3, f4, f5⟩ := name_run cs (A := B1) (by rw [g2.state]; exact hr) g5 (by rw [g3]; exact hs)
      (fun c hc => hn _ (List.mem_map_of_mem hc)) (by simpa using hl)
    rw [List.nil_append] at f5
    have hstep : step e f mask B2 = (none, fallback B2) := by
      rw [step_tok (by rw [f2.state, g2.state]; exact hr) (by rw [f5.id]; simp)]
      unfold tokStep
      rw [f5.id]
      have hasc : asc e f B2 ≠ 59 := by unfold asc; rw [f3]; split <;> omega
      simp only
      rw [if_neg, if_neg hasc]
      rintro ⟨h1, -, h3⟩
      unfold cls at h3
      rw [f3, cls_any_iff _ (uasc_lt e f _)] at h3
      rw [f5.pos] at h1
      rcases h3 with h3 | h3
      · rcases hxn with h | h
        · rw [h3] at h; cases h
        · omega
      · exact hx h3
    have hl := g2.trans f2
    refine ⟨m1 + m2 + 1, _, (g1.trans f1).snoc hstep, ⟨hl.1, hl.2, hl.3, hl.4, hl.5, hl.6⟩, ?_, ?_, rfl, rfl, rfl, rfl, ?_⟩
    · exact f3
    · simp only [fallback, initTok, tokTo, pushes, fallbackChars, f5.id, f5.pos, f5.take, f4, g4, hl.output]
    · exact f5.buf

/-- The token reader has read the digits `ns` of a number. -/
structure Num (A : Cfg) (base : Nat) (ns : List Byte) (v : Nat) : Prop where
  ent : Ent A .ParsingNumericBaseEntity ns
  base : A.tok.base = base
  value : A.tok.value = v
  lt : v < 16 ^ ns.length

/-- The value of a digit is what the token reader computes. -/
def DigitOk (base : Nat) (digit : Byte → Option Nat) : Prop :=
  base ≤ 16 ∧ ∀ a, a < 256 → match digit a with
    | some x => hexVal a = x ∧ x < base ∧ a < 128 ∧ a ≠ 59
    | none => base ≤ hexVal a

theorem dec_ok : DigitOk 10 decDigit := by
  refine ⟨by decide, fun a _ => ?_⟩
  by_cases h : 48 ≤ a ∧ a ≤ 57
  · simp only [decDigit, hexVal, if_pos h]
    exact ⟨trivial, by omega, by omega, by omega⟩
  · simp only [decDigit, hexVal, if_neg h]
    repeat' split
    all_goals omega

theorem hex_ok : DigitOk 16 hexaDigit := by
  refine ⟨by decide, fun a _ => ?_⟩
  by_cases h : 48 ≤ a ∧ a ≤ 57
  · simp only [hexaDigit, hexVal, if_pos h]
    exact ⟨trivial, by omega, by omega, by omega⟩
  · by_cases h2 : 65 ≤ a ∧ a ≤ 70
    · simp only [hexaDigit, hexVal, if_neg h, if_pos h2]
      exact ⟨by omega, by omega, by omega, by omega⟩
    · by_cases h3 : 97 ≤ a ∧ a ≤ 102
      · simp only [hexaDigit, hexVal, if_neg h, if_neg h2, if_pos h3]
        exact ⟨by omega, by omega, by omega, by omega⟩
      · simp only [hexaDigit, hexVal, if_neg h, if_neg h2, if_neg h3]
        omega

/-- A digit. -/
theorem digit_step {isTok : Cc → Bool} {arg : ElementType} {A : Cfg} {base v x : Nat} {digit : Byte → Option Nat}
    {ns : List Byte} (hr : Reads mask A.state isTok arg) (ha : Num A base ns v) (hd : DigitOk base digit)
    (hx : digit (uasc e f A.src) = some x) (hl : ns.length ≤ 15) :
    ∃ B, step e f mask A = (none, if B.tok.pos = 16 then fallback B else B) ∧ Like A B ∧
      B.src = A.src + ulen e f A.src ∧ B.out = A.out ∧ Num B base (ns ++ [uasc e f A.src]) (v * base + x) := by
  have h := hd.2 _ (uasc_lt e f A.src)
  rw [hx] at h
  obtain ⟨h1, h2, h3, h4⟩ := h
  have hasc : asc e f A = uasc e f A.src := asc_of rfl h3
  have hlt : v * base + x < 16 ^ (ns.length + 1) := by
    have g1 := ha.lt
    have g2 : v * base ≤ v * 16 := Nat.mul_le_mul_left _ hd.1
    have g3 := hd.1
    rw [Nat.pow_succ]
    omega
  have hlt2 : v * base + x < 2 ^ 64 := by
    have : 16 ^ (ns.length + 1) ≤ 16 ^ 16 := Nat.pow_le_pow_right (by omega) (by omega)
    have : (16 : Nat) ^ 16 = 2 ^ 64 := by decide
    omega
  refine ⟨adv e f (tokTo (fun t => { t with value := (t.value * t.base + hexVal (asc e f A)) % 2 ^ 64 })
    (store (asc e f A) A)), ?_, ⟨rfl, rfl, rfl, rfl, rfl, rfl⟩, rfl, rfl, ⟨ha.ent.id, ?_, ?_, ?_⟩, ?_, ?_, ?_⟩
  · rw [step_tok hr (by rw [ha.ent.id]; simp)]
    unfold tokStep
    rw [ha.ent.id]
    simp only
    rw [if_neg (by rw [hasc]; exact h4), if_neg (by rw [hasc, h1, ha.base]; omega)]
  · simp [adv, store, tokTo, ha.ent.pos]
  · simp [adv, store, tokTo, ha.ent.buf]
  · have := take_set (a := uasc e f A.src) ha.ent.take (by rw [ha.ent.buf]; omega)
    simp only [adv, store, tokTo, ha.ent.pos, hasc, List.length_append, List.length_cons, List.length_nil]
    exact this
  · exact ha.base
  · simp only [adv, store, tokTo, ha.value, ha.base, hasc, h1]
    exact Nat.mod_eq_of_lt hlt2
  · simpa using hlt

/-- The digits of a number, at most 15. -/
theorem digits_run {isTok : Cc → Bool} {arg : ElementType} {base : Nat} {digit : Byte → Option Nat}
    (hd : DigitOk base digit) (cs : List Ch) : ∀ {A : Cfg} {ns : List Byte} {k v v' : Nat},
    Reads mask A.state isTok arg → Num A base ns v → Span e f A.src cs k →
    numeral base digit (cs.map Ch.asc) v = some v' → ns.length + cs.length ≤ 15 →
    ∃ m B, Steps e f mask m A B ∧ Like A B ∧ B.src = k ∧ B.out = A.out ∧ Num B base (ns ++ cs.map Ch.asc) v' := by
  induction cs with
  | nil =>
    intro A ns k v v' hr ha hs hv hl
    cases hs
    cases hv
    exact ⟨0, A, .refl A, .refl A, rfl, rfl, by simpa using ha⟩
  | cons c cs ih =>
    intro A ns k v v' hr ha hs hv hl
    obtain ⟨rfl, hs⟩ := hs
    simp only [List.length_cons] at hl
    simp only [List.map_cons, numeral, Option.bind_eq_some_iff] at hv
    obtain ⟨x, hx, hv⟩ := hv
    obtain ⟨B, b1, b2, b3, b4, b5⟩ := digit_step (e := e) (f := f) hr ha hd hx (by omega)
    have hp : B.tok.pos ≠ 16 := by rw [b5.ent.pos]; simp; omega
    rw [if_neg hp] at b1
    obtain ⟨m, C, g1, g2, g3, g4, g5⟩ := ih (A := B) (k := k) (by rw [b2.state]; exact hr) b5 (by rw [b3]; exact hs)
      hv (by simp; omega)
    refine ⟨m + 1, C, .cons b1 g1, b2.trans g2, g3, g4.trans b4, ?_⟩
    rw [List.append_assoc] at g5
    exact g5

/-- The begin of a decimal number. -/
theorem dec_start {isTok : Cc → Bool} {arg : ElementType} {A : Cfg} {cr : Bool} (hr : Reads mask A.state isTok arg)
    (ht : Tok A cr) (hc : isTok .Amp = false) {c0 c1 : Ch} {k : Nat} (hs : Span e f A.src [c0, c1] k)
    (h0 : c0.asc = 38) (h1 : c1.asc = 35) (hx : uasc e f k ≠ 120) :
    ∃ m B, Steps e f mask m A B ∧ Like A B ∧ B.src = k ∧ B.out = A.out ∧ Num B 10 [] 0 := by
  obtain ⟨rfl, rfl, rfl⟩ := hs
  obtain ⟨B, b1, b2, b3, b4, b5⟩ := amp_run hr ht hc h0
  have s2 : step e f mask B = (none, idTo .ParsingNumericEntity (adv e f B)) := by
    rw [step_tok (by rw [b2.state]; exact hr) (by rw [b5]; simp)]
    unfold tokStep
    rw [b5]
    simp only
    rw [if_pos (asc_of (by rw [b3]; exact h1) (by omega))]
  have s3 : step e f mask (idTo .ParsingNumericEntity (adv e f B)) =
      (none, tokTo (fun t => { t with id := .ParsingNumericBaseEntity, base := 10 }) (idTo .ParsingNumericEntity (adv e f B))) := by
    rw [step_tok (by show Reads mask B.state isTok arg; rw [b2.state]; exact hr) (by simp [idTo, tokTo])]
    unfold tokStep
    rw [show (idTo .ParsingNumericEntity (adv e f B)).tok.id = .ParsingNumericEntity from rfl]
    simp only
    rw [if_neg]
    unfold asc
    rw [show (idTo .ParsingNumericEntity (adv e f B)).src = B.src + ulen e f B.src from rfl, b3]
    split <;> omega
  refine ⟨3, _, .cons b1 (.cons s2 (.one s3)), ⟨b2.1, b2.2, b2.3, b2.4, b2.5, b2.6⟩, ?_, b4, ⟨rfl, ?_, ?_, rfl⟩, rfl, ?_,
    by decide⟩
  · simp [idTo, tokTo, adv, b3]
  · simp [idTo, tokTo, adv, b5, ht.pos]
  · simp [idTo, tokTo, adv, b5, ht.buf]
  · simp [idTo, tokTo, adv, b5, ht.value]

/-- The begin of a hexadecimal number. -/
theorem hex_start {isTok : Cc → Bool} {arg : ElementType} {A : Cfg} {cr : Bool} (hr : Reads mask A.state isTok arg)
    (ht : Tok A cr) (hc : isTok .Amp = false) {c0 c1 c2 : Ch} {k : Nat} (hs : Span e f A.src [c0, c1, c2] k)
    (h0 : c0.asc = 38) (h1 : c1.asc = 35) (hx : c2.asc = 120) :
    ∃ m B, Steps e f mask m A B ∧ Like A B ∧ B.src = k ∧ B.out = A.out ∧ Num B 16 [] 0 := by
  obtain ⟨rfl, rfl, rfl, rfl⟩ := hs
  obtain ⟨B, b1, b2, b3, b4, b5⟩ := amp_run hr ht hc h0
  have s2 : step e f mask B = (none, idTo .ParsingNumericEntity (adv e f B)) := by
    rw [step_tok (by rw [b2.state]; exact hr) (by rw [b5]; simp)]
    unfold tokStep
    rw [b5]
    simp only
    rw [if_pos (asc_of (by rw [b3]; exact h1) (by omega))]
  have s3 : step e f mask (idTo .ParsingNumericEntity (adv e f B)) =
      (none, tokTo (fun t => { t with id := .ParsingNumericBaseEntity, base := 16 })
        (adv e f (idTo .ParsingNumericEntity (adv e f B)))) := by
    rw [step_tok (by show Reads mask B.state isTok arg; rw [b2.state]; exact hr) (by simp [idTo, tokTo])]
    unfold tokStep
    rw [show (idTo .ParsingNumericEntity (adv e f B)).tok.id = .ParsingNumericEntity from rfl]
    simp only
    rw [if_pos]
    refine asc_of ?_ (by omega)
    rw [show (idTo .ParsingNumericEntity (adv e f B)).src = B.src + ulen e f B.src from rfl, b3]
    exact hx
  refine ⟨3, _, .cons b1 (.cons s2 (.one s3)), ⟨b2.1, b2.2, b2.3, b2.4, b2.5, b2.6⟩, ?_, b4, ⟨rfl, ?_, ?_, rfl⟩, rfl, ?_,
    by decide⟩
  · simp [idTo, tokTo, adv, b3]
  · simp [idTo, tokTo, adv, b5, ht.pos]
  · simp [idTo, tokTo, adv, b5, ht.buf]
  · simp [idTo, tokTo, adv, b5, ht.value]

/-- The end of a number. -/
theorem num_end {isTok : Cc → Bool} {arg : ElementType} {A : Cfg} {base c : Nat} {ns : List Byte}
    (hr : Reads mask A.state isTok arg) (ha : Num A base ns c) (hx : uasc e f A.src = 59) (hc : c ≤ 0xFFFFFFFF) :
    Reads1 e f mask A (A.src + ulen e f A.src) (A.output.print c) false := by
  have hstep : step e f mask A = (none, adv e f (initTok .ParsingToken (pushes [A.tok.value % 2 ^ 32] A))) := by
    rw [step_tok hr (by rw [ha.ent.id]; simp)]
    unfold tokStep
    rw [ha.ent.id]
    simp only
    rw [if_pos (asc_of hx (by omega)), if_neg (by rw [ha.value]; omega)]
  refine ⟨1, _, .one hstep, ⟨rfl, rfl, rfl, rfl, rfl, rfl⟩, rfl, ?_, rfl, rfl, rfl, rfl, ha.ent.buf⟩
  simp only [adv, initTok, tokTo, pushes, ha.value, List.flatMap_cons, List.flatMap_nil, List.append_nil]
  rw [Nat.mod_eq_of_lt (by omega)]

theorem Reads1.after {A B : Cfg} {m k : Nat} {bs : List Byte} {cr : Bool} (h : Steps e f mask m A B) (hl : Like A B)
    (ho : B.out = A.out) (hb : Reads1 e f mask B k bs cr) : Reads1 e f mask A k bs cr := by
  obtain ⟨n, C, h1, h2, h3, h4, h5⟩ := hb
  exact ⟨m + n, C, h.trans h1, hl.trans h2, h3, by rw [h4, ho], h5⟩

theorem numeral_digits {base : Nat} {digit : Byte → Option Nat} : ∀ (ds : List Byte) (v : Nat),
    (∀ a ∈ ds, (digit a).isSome = true) → ∃ v', numeral base digit ds v = some v'
  | [], v, _ => ⟨v, rfl⟩
  | d :: ds, v, h => by
    obtain ⟨x, hx⟩ := Option.isSome_iff_exists.1 (h d (by simp))
    obtain ⟨v', hv⟩ := numeral_digits (base := base) ds (v * base + x) (fun a ha => h a (by simp [ha]))
    exact ⟨v', by simp [numeral, hx, hv]⟩

/-- The characters of a number that is no reference are printed. -/
theorem num_back {A : Cfg} {base v : Nat} {ns : List Byte} (ha : Num A base ns v) :
    Like A (fallback A) ∧ (fallback A).src = A.src ∧
      (fallback A).out = A.out ++ (38 :: 35 :: ns).flatMap A.output.print ∧ Tok (fallback A) false := by
  refine ⟨⟨rfl, rfl, rfl, rfl, rfl, rfl⟩, rfl, ?_, rfl, rfl, rfl, rfl, ha.ent.buf⟩
  simp only [fallback, initTok, tokTo, pushes, fallbackChars, ha.ent.id, ha.ent.pos, ha.ent.take]

/-- A number that ends without semicolon, or with the 16th digit. -/
theorem num_lone {isTok : Cc → Bool} {arg : ElementType} {base : Nat} {digit : Byte → Option Nat}
    (hd : DigitOk base digit) {A : Cfg} (hr : Reads mask A.state isTok arg) (ha : Num A base [] 0) {vs : List Ch} {k : Nat}
    (hs : Span e f A.src vs k) (h1 : vs.length ≤ 16) (h2 : ∀ a ∈ vs.map Ch.asc, (digit a).isSome = true)
    (h3 : digit (uasc e f k) = none ∨ vs.length = 16) (h4 : uasc e f k ≠ 59 ∨ vs.length = 16) :
    Reads1 e f mask A k ((38 :: 35 :: vs.map Ch.asc).flatMap A.output.print) false := by
  by_cases h16 : vs.length = 16
  · obtain ⟨ws, z, rfl⟩ : ∃ ws z, vs = ws ++ [z] := by
      have hne : vs ≠ [] := by intro h; rw [h] at h16; simp at h16
      exact ⟨vs.dropLast, vs.getLast hne, (List.dropLast_concat_getLast hne).symm⟩
    simp only [List.length_append, List.length_cons, List.length_nil] at h16
    obtain ⟨k2, hs5, hs6⟩ := hs.split
    rw [List.map_append] at h2 ⊢
    obtain ⟨v, hv⟩ := numeral_digits (base := base) (digit := digit) (ws.map Ch.asc) 0
      (fun a ha => h2 a (List.mem_append_left _ ha))
    obtain ⟨m2, B2, f1, f2, f3, f4, f5⟩ := digits_run hd ws hr ha hs5 hv (by simp; omega)
    obtain ⟨rfl, rfl⟩ := hs6
    obtain ⟨x, hx⟩ := Option.isSome_iff_exists.1 (h2 (uasc e f k2) (by simp [chAt]))
    obtain ⟨B3, b1, b2, b3, b4, b5⟩ := digit_step (e := e) (f := f) (A := B2) (x := x) (by rw [f2.state]; exact hr)
      f5 hd (by rw [f3]; exact hx) (by simp; omega)
    have hp : B3.tok.pos = 16 := by rw [b5.ent.pos]; simp; omega
    rw [if_pos hp] at b1
    obtain ⟨q1, q2, q3, q4⟩ := num_back b5
    refine ⟨m2 + 1, _, f1.snoc b1, (f2.trans b2).trans q1, ?_, ?_, q4⟩
    · rw [q2, b3, f3]
    · rw [q3, b4, f4, (f2.trans b2).output, f3]
      rfl
  · obtain ⟨v, hv⟩ := numeral_digits (base := base) (digit := digit) (vs.map Ch.asc) 0 h2
    obtain ⟨m2, B2, f1, f2, f3, f4, f5⟩ := digits_run hd vs hr ha hs hv (by simp; omega)
    have hstep : step e f mask B2 = (none, fallback B2) := by
      rw [step_tok (by rw [f2.state]; exact hr) (by rw [f5.ent.id]; simp)]
      unfold tokStep
      rw [f5.ent.id]
      have n1 := h3.resolve_right h16
      have n2 := hd.2 _ (uasc_lt e f k)
      rw [n1] at n2
      have n3 := h4.resolve_right h16
      have hasc : asc e f B2 ≠ 59 := by unfold asc; rw [f3]; split <;> omega
      have hhex : base ≤ hexVal (asc e f B2) := by
        unfold asc
        rw [f3]
        split
        · exact n2
        · have : hexVal 0 = 255 := by decide
          have := hd.1
          omega
      simp only
      rw [if_neg hasc, if_pos (by rw [f5.base]; exact hhex)]
    obtain ⟨q1, q2, q3, q4⟩ := num_back f5
    refine ⟨m2 + 1, _, f1.snoc hstep, f2.trans q1, ?_, ?_, q4⟩
    · rw [q2, f3]
    · rw [q3, f4, f2.output]
      rfl

/-- A number that is too large: the semicolon is printed and read again. -/
theorem num_big {isTok : Cc → Bool} {arg : ElementType} {base : Nat} {digit : Byte → Option Nat}
    (hd : DigitOk base digit) {A : Cfg} (hr : Reads mask A.state isTok arg) (ha : Num A base [] 0) {vs : List Ch} {k v : Nat}
    (hs : Span e f A.src vs k) (h1 : vs.length ≤ 15) (hv : numeral base digit (vs.map Ch.asc) 0 = some v)
    (h2 : 0xFFFFFFFF < v) (h3 : uasc e f k = 59) :
    Reads1 e f mask A k ((38 :: 35 :: vs.map Ch.asc ++ [59]).flatMap A.output.print) false := by
  obtain ⟨m2, B2, f1, f2, f3, f4, f5⟩ := digits_run hd vs hr ha hs hv (by simp; omega)
  rw [List.nil_append] at f5
  have hstep : step e f mask B2 = (none, fallback (store 59 B2)) := by
    rw [step_tok (by rw [f2.state]; exact hr) (by rw [f5.ent.id]; simp)]
    unfold tokStep
    rw [f5.ent.id]
    simp only
    rw [if_pos (asc_of (by rw [f3]; exact h3) (by omega)), if_pos (by rw [f5.value]; exact h2)]
  have ht : (B2.tok.buf.set B2.tok.pos 59).take (B2.tok.pos + 1) = vs.map Ch.asc ++ [59] := by
    rw [f5.ent.pos]
    exact take_set f5.ent.take (by rw [f5.ent.buf]; simp; omega)
  refine ⟨m2 + 1, _, f1.snoc hstep, ⟨f2.1, f2.2, f2.3, f2.4, f2.5, f2.6⟩, f3, ?_, rfl, rfl, rfl, rfl, ?_⟩
  · simp only [fallback, initTok, tokTo, pushes, fallbackChars, store, f5.ent.id, f4, ht, f2.output]
    rfl
  · simp [fallback, initTok, tokTo, pushes, store, TokState.init, f5.ent.buf]

/-- The begin of a number: how to go on behind it. -/
theorem dec_begin {isTok : Cc → Bool} {arg : ElementType} {A : Cfg} {cr : Bool} (hr : Reads mask A.state isTok arg)
    (ht : Tok A cr) (hc : isTok .Amp = false) {cs : List Ch} {k : Nat} (hs : Span e f A.src cs k) {ds : List Byte}
    (has : cs.map Ch.asc = 38 :: 35 :: ds) (hx : ds.headD (uasc e f k) ≠ 120) :
    ∃ m B vs, Steps e f mask m A B ∧ Like A B ∧ B.out = A.out ∧ Num B 10 [] 0 ∧ Span e f B.src vs k ∧
      vs.map Ch.asc = ds := by
  obtain ⟨us, vs, rfl, a3, a4⟩ := map_asc_split (xs := [38, 35]) (ys := ds) (by simpa using has)
  obtain ⟨k1, hs3, hs4⟩ := hs.split
  match us, a3 with
  | [c0, c1], a3 =>
    simp only [List.map_cons, List.map_nil, List.cons.injEq, and_true] at a3
    have hk : uasc e f k1 ≠ 120 := by
      cases vs with
      | nil => cases hs4; rw [← a4] at hx; exact hx
      | cons d vs =>
        rw [← a4, List.map_cons, List.headD_cons, hs4.1] at hx
        exact hx
    obtain ⟨m1, B1, g1, g2, g3, g4, g5⟩ := dec_start hr ht hc hs3 a3.1 a3.2 hk
    exact ⟨m1, B1, vs, g1, g2, g4, g5, by rw [g3]; exact hs4, a4⟩
  | [], a3 => cases a3
  | [_], a3 => simp at a3
  | _ :: _ :: _ :: _, a3 => simp at a3

theorem hex_begin {isTok : Cc → Bool} {arg : ElementType} {A : Cfg} {cr : Bool} (hr : Reads mask A.state isTok arg)
    (ht : Tok A cr) (hc : isTok .Amp = false) {cs : List Ch} {k : Nat} (hs : Span e f A.src cs k) {ds : List Byte}
    (has : cs.map Ch.asc = 38 :: 35 :: 120 :: ds) :
    ∃ m B vs, Steps e f mask m A B ∧ Like A B ∧ B.out = A.out ∧ Num B 16 [] 0 ∧ Span e f B.src vs k ∧
      vs.map Ch.asc = ds := by
  obtain ⟨us, vs, rfl, a3, a4⟩ := map_asc_split (xs := [38, 35, 120]) (ys := ds) (by simpa using has)
  obtain ⟨k1, hs3, hs4⟩ := hs.split
  match us, a3 with
  | [c0, c1, c2], a3 =>
    simp only [List.map_cons, List.map_nil, List.cons.injEq, and_true] at a3
    obtain ⟨m1, B1, g1, g2, g3, g4, g5⟩ := hex_start hr ht hc hs3 a3.1 a3.2.1 a3.2.2
    exact ⟨m1, B1, vs, g1, g2, g4, g5, by rw [g3]; exact hs4, a4⟩
  | [], a3 => cases a3
  | [_], a3 => simp at a3
  | [_, _], a3 => simp at a3
  | _ :: _ :: _ :: _ :: _, a3 => simp at a3

/-- A number with a semicolon. -/
theorem num_ref {isTok : Cc → Bool} {arg : ElementType} {base : Nat} {digit : Byte → Option Nat}
    (hd : DigitOk base digit) {A : Cfg} (hr : Reads mask A.state isTok arg) (ha : Num A base [] 0) {vs : List Ch} {k c : Nat}
    {ds : List Byte} (hs : Span e f A.src vs k) (hds : vs.map Ch.asc = ds ++ [59]) (h1 : ds.length ≤ 15)
    (hv : numeral base digit ds 0 = some c) (h2 : c ≤ 0xFFFFFFFF) :
    Reads1 e f mask A k (A.output.print c) false := by
  obtain ⟨us, ws, rfl, a1, a2⟩ := map_asc_split hds
  obtain ⟨k1, hs1, hs2⟩ := hs.split
  obtain ⟨m2, B2, f1, f2, f3, f4, f5⟩ := digits_run hd us hr ha hs1 (by rw [a1]; exact hv)
    (by rw [← a1] at h1; simpa using h1)
  obtain ⟨l1, rfl⟩ := span_last hs2 a2
  have := num_end (e := e) (f := f) (by rw [f2.state]; exact hr) f5 (by rw [f3]; exact l1) h2
  rw [f3, f2.output] at this
  exact .after f1 f2 f4 this

/-- A reference. -/
theorem ref_run {isTok : Cc → Bool} {arg : ElementType} {A : Cfg} {cr : Bool} (hr : Reads mask A.state isTok arg)
    (ht : Tok A cr) (hc : isTok .Amp = false) {cs : List Ch} {k : Nat} (hs : Span e f A.src cs k) {c : UChar}
    (hx : Reference (cs.map Ch.asc) c) : Reads1 e f mask A k (A.output.print c) false := by
  generalize has : cs.map Ch.asc = as at hx
  cases hx with
  | named s _ hm => exact named_run hr ht hc hs hm has
  | dec ds _ h1 h2 h3 h4 =>
    obtain ⟨m, B, vs, g1, g2, g3, g4, g5, g6⟩ := dec_begin hr ht hc hs (by simpa using has) (by
      cases ds with
      | nil => simp at h1
      | cons d ds =>
        simp only [numeral, Option.bind_eq_some_iff] at h3
        obtain ⟨x, hx, -⟩ := h3
        rintro (rfl : d = 120)
        simp [decDigit] at hx)
    have := num_ref dec_ok (by rw [g2.state]; exact hr) g4 g5 g6 h2 h3 h4
    rw [g2.output] at this
    exact .after g1 g2 g3 this
  | hex ds _ h1 h2 h3 h4 =>
    obtain ⟨m, B, vs, g1, g2, g3, g4, g5, g6⟩ := hex_begin hr ht hc hs (by simpa using has)
    have := num_ref hex_ok (by rw [g2.state]; exact hr) g4 g5 g6 h2 h3 h4
    rw [g2.output] at this
    exact .after g1 g2 g3 this

/-- An ampersand with the characters behind it that is no reference. -/
theorem lone_run {isTok : Cc → Bool} {arg : ElementType} {A : Cfg} {cr : Bool} (hr : Reads mask A.state isTok arg)
    (ht : Tok A cr) (hc : isTok .Amp = false) {cs : List Ch} {k : Nat} (hs : Span e f A.src cs k)
    (hx : Lone (cs.map Ch.asc) (uasc e f k)) :
    Reads1 e f mask A k ((cs.map Ch.asc).flatMap A.output.print) false := by
  generalize has : cs.map Ch.asc = as at hx ⊢
  generalize hnx : uasc e f k = next at hx
  cases hx with
  | name ns _ h1 h2 h3 h4 h5 =>
    subst hnx
    exact lone_name_run hr ht hc hs has h1 h2 h3 h4 h5
  | number ds _ h1 h2 h3 h4 h5 =>
    subst hnx
    obtain ⟨m, B, vs, g1, g2, g3, g4, g5, rfl⟩ := dec_begin hr ht hc hs has (by
      cases ds with
      | nil => exact h5 rfl
      | cons d ds =>
        have := h2 d (by simp)
        rintro (rfl : d = 120)
        exact absurd this (by decide))
    simp only [List.length_map] at h1 h3 h4
    have := num_lone dec_ok (by rw [g2.state]; exact hr) g4 g5 h1 h2 h3 h4
    rw [g2.output] at this
    exact .after g1 g2 g3 this

/-- What the map of the user has for the buffer. -/
def userChar (A : Cfg) : Option UChar :=
  A.entityMap.bind fun m => (m.find? fun x => x.1 = A.bufAddr).map (·.2)

theorem Like.user {A B : Cfg} (h : Like A B) : userChar B = userChar A := by
  unfold userChar
  rw [h.map, h.addr]

/-- A malformed reference. -/
theorem odd_run {isTok : Cc → Bool} {arg : ElementType} {A : Cfg} {cr : Bool} (hr : Reads mask A.state isTok arg)
    (ht : Tok A cr) (hc : isTok .Amp = false) {cs : List Ch} {k : Nat} (hs : Span e f A.src cs k) {ds : List UChar}
    (hx : Garbled (userChar A) (cs.map Ch.asc) (uasc e f k) ds) :
    Reads1 e f mask A k (ds.flatMap A.output.print) false := by
  generalize has : cs.map Ch.asc = as at hx ⊢
  generalize hnx : uasc e f k = next at hx
  cases hx with
  | hex ds _ h1 h2 h3 h4 =>
    subst hnx
    obtain ⟨m, B, vs, g1, g2, g3, g4, g5, rfl⟩ := hex_begin hr ht hc hs has
    simp only [List.length_map] at h1 h3 h4
    have := num_lone hex_ok (by rw [g2.state]; exact hr) g4 g5 h1 h2 h3 h4
    rw [g2.output] at this
    exact .after g1 g2 g3 this
  | bigDec ds v h1 h2 h3 =>
    obtain ⟨m, B, vs, g1, g2, g3, g4, g5, rfl⟩ := dec_begin hr ht hc hs has (by
      cases ds with
      | nil => simp [numeral] at h2; omega
      | cons d ds =>
        simp only [numeral, Option.bind_eq_some_iff] at h2
        obtain ⟨x, hx, -⟩ := h2
        rintro (rfl : d = 120)
        simp [decDigit] at hx)
    have := num_big dec_ok (by rw [g2.state]; exact hr) g4 g5 (by simpa using h1) h2 h3 hnx
    rw [g2.output] at this
    exact .after g1 g2 g3 this
  | bigHex ds v h1 h2 h3 =>
    obtain ⟨m, B, vs, g1, g2, g3, g4, g5, rfl⟩ := hex_begin hr ht hc hs has
    have := num_big hex_ok (by rw [g2.state]; exact hr) g4 g5 (by simpa using h1) h2 h3 hnx
    rw [g2.output] at this
    exact .after g1 g2 g3 this
  | noDec =>
    obtain ⟨m, B, vs, g1, g2, g3, g4, g5, g6⟩ := dec_begin hr ht hc hs has (by simp)
    have := num_ref (ds := []) dec_ok (by rw [g2.state]; exact hr) g4 g5 g6 (by simp) rfl (by omega)
    rw [g2.output] at this
    simpa using Reads1.after g1 g2 g3 this
  | noHex =>
    obtain ⟨m, B, vs, g1, g2, g3, g4, g5, g6⟩ := hex_begin hr ht hc hs has
    have := num_ref (ds := []) hex_ok (by rw [g2.state]; exact hr) g4 g5 g6 (by simp) rfl (by omega)
    rw [g2.output] at this
    simpa using Reads1.after g1 g2 g3 this
  | user ns c _ h1 h2 h3 h4 h5 =>
    have := name_ref_run hr ht hc hs has h2 h1 h3 (by
      unfold entityChar
      rw [predefined_none h4]
      unfold userChar at h5
      cases hm : A.entityMap with
      | none => rw [hm] at h5; cases h5
      | some m => rw [hm] at h5; exact h5)
    simpa using this

/-! ## Texts -/

/-- The value of a text, given whether a carriage return precedes it. -/
def lines' (out : Enc) : Bool → List Atom → List Byte
  | _, [] => []
  | _, .cr :: as => out.print 10 ++ lines' out true as
  | b, .lf :: as => (if b then [] else out.print 10) ++ lines' out false as
  | _, .bytes bs :: as => bs ++ lines' out false as

theorem lines_eq (out : Enc) : ∀ as, lines' out false as = lines out as
  | [] => rfl
  | [.cr] => rfl
  | .cr :: .lf :: as => by
    rw [lines, ← lines_eq out as]
    rfl
  | .cr :: .cr :: as => by
    rw [lines, ← lines_eq out (.cr :: as)]
    · rfl
    · nofun
  | .cr :: .bytes b :: as => by
    rw [lines, ← lines_eq out (.bytes b :: as)]
    · rfl
    · nofun
  | .lf :: as => by
    rw [lines, ← lines_eq out as]
    rfl
  | .bytes b :: as => by
    rw [lines, ← lines_eq out as]
    rfl

/-- The token reader prints the value of the text. -/
theorem segs_run {isTok : Cc → Bool} {arg : ElementType} {out : Enc} (hc : isTok .Amp = false) {k : Nat} (ss : List Seg) :
    ∀ {A : Cfg} {cr : Bool}, Reads mask A.state isTok arg → Tok A cr → A.output = out →
    Span e f A.src (ss.flatMap Seg.text) k → SegsOk (userChar A) (uasc e f k) ss →
    (∀ c ∈ ss.flatMap Seg.text, isTok (controlCharMap c.asc) = true ∨ c.asc = 38) →
    ∃ cr', Reads1 e f mask A k (lines' out cr (ss.map (Seg.atom e out))) cr' := by
  induction ss with
  | nil =>
    intro A cr hr ht ho hs hk hcs
    cases hs
    exact ⟨cr, 0, A, .refl A, .refl A, rfl, by simp [lines'], ht⟩
  | cons s ss ih =>
    intro A cr hr ht ho hs hk hcs
    rw [List.flatMap_cons] at hs hcs
    obtain ⟨k1, hs1, hs2⟩ := hs.split
    have next {cr1 : Bool} {bs : List Byte} {out' : List Byte} (h1 : Reads1 e f mask A k1 bs cr1)
        (hk' : SegsOk (userChar A) (uasc e f k) ss) (he : out' = bs ++ lines' out cr1 (ss.map (Seg.atom e out))) :
        ∃ cr', Reads1 e f mask A k out' cr' := by
      obtain ⟨m, B, b1, b2, b3, b4, b5⟩ := h1
      obtain ⟨cr', n, C, c1, c2, c3, c4, c5⟩ := ih (A := B) (by rw [b2.state]; exact hr) b5 (by rw [b2.output]; exact ho)
        (by rw [b3]; exact hs2) (by rw [b2.user]; exact hk') (fun c hc => hcs c (List.mem_append_right _ hc))
      exact ⟨cr', m + n, C, b1.trans c1, b2.trans c2, c3, by rw [c4, b4, he, List.append_assoc], c5⟩
    have first : uasc e f k1 = firstOf (uasc e f k) ss := by
      unfold firstOf
      cases hq : ss.flatMap Seg.text with
      | nil =>
        rw [hq] at hs2
        cases hs2
        rfl
      | cons d ds =>
        rw [hq] at hs2
        rw [List.map_cons, hs2.1]
        rfl
    cases s with
    | ch c =>
      obtain ⟨h38, hk⟩ := hk
      obtain ⟨rfl, rfl⟩ := hs1
      have htok := (hcs (chAt e f A.src) (by simp [Seg.text])).resolve_right h38
      have h1 := ch_run hr ht htok
      refine next h1 hk ?_
      have : (chAt e f A.src).asc = uasc e f A.src := rfl
      simp only [List.map_cons, Seg.atom, this, ho]
      by_cases h13 : uasc e f A.src = 13
      · simp [h13, lines']
      · simp only [h13, if_false, decide_false]
        by_cases h10 : uasc e f A.src = 10
        · simp [h10, lines']
        · simp only [h10, if_false, lines']
    | ref cs c =>
      obtain ⟨h1, hk⟩ := hk
      refine next (ref_run hr ht hc hs1 h1) hk ?_
      rw [ho]
      simp [Seg.atom, lines']
    | lone cs =>
      obtain ⟨h1, hk⟩ := hk
      refine next (lone_run hr ht hc hs1 (by rw [first]; exact h1)) hk ?_
      rw [ho]
      simp [Seg.atom, lines', Seg.text]
    | odd cs ds =>
      obtain ⟨h1, hk⟩ := hk
      refine next (odd_run hr ht hc hs1 (by rw [first]; exact h1)) hk ?_
      rw [ho]
      simp [Seg.atom, lines']

end Mach

end TW
