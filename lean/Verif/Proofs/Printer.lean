import Verif.Model.XMLPrinter
import Verif.Proofs.TagStack
import Verif.Proofs.CharsetLemmas

/-!
# The printer
-/

namespace TW

open Spec

/-! ## Reading strings -/

theorem uchar_congr (e : Enc) {f g : Nat → Byte} {k : Nat} (h : ∀ i, i < 8 → f (k + i) = g (k + i)) :
    ulen e f k = ulen e g k ∧ uval e f k = uval e g k ∧ uasc e f k = uasc e g k := by
  have h0 := h 0 (by omega)
  have h1 := h 1 (by omega)
  have h2 := h 2 (by omega)
  have h3 := h 3 (by omega)
  simp only [Nat.add_zero] at h0
  have hs : slice f (k + 1) (utf8Len (g k) - 1) = slice g (k + 1) (utf8Len (g k) - 1) := by
    unfold slice
    apply List.map_congr_left
    intro i hi
    have := utf8Len_le (g k)
    have := h (1 + i) (by simp at hi; omega)
    rwa [show k + 1 + i = k + (1 + i) by omega]
  have hv : uval e f k = uval e g k := by
    cases e with
    | utf8 => simp only [uval, utf8Val, h0, hs]
    | utf16 be => cases be <;> simp [uval, unit16, h0, h1, h2, h3, Nat.add_assoc]
    | ucs2 be => cases be <;> simp [uval, unit16, h0, h1]
    | ucs4 be => cases be <;> simp [uval, h0, h1, h2, h3]
    | isolatin p => simp only [uval, h0]
  refine ⟨?_, hv, ?_⟩
  · cases e with
    | utf16 be => cases be <;> simp [ulen, unit16, h0, h1]
    | _ => simp [ulen, h0]
  · cases e <;> simp [uasc, h0, hv]

theorem cyc_strm {src : List Byte} (h : src.length < 2 ^ 32) {k : Nat} (hk : k < 2 ^ 32) :
    cyc src k = strm src k := by
  unfold cyc
  rw [Nat.mod_eq_of_lt hk, Nat.mod_eq_of_lt h]
  split
  · rfl
  · exact (strm_end src k (by omega)).symm

/-- The characters from offset `k` on, at most `n`. -/
def decFrom (e : Enc) (f : Nat → Byte) : Nat → Nat → List UChar
  | 0, _ => []
  | n + 1, k => if uval e f k = 0 then [] else uval e f k :: decFrom e f n (k + ulen e f k)

theorem decFrom_eq (e : Enc) (f : Nat → Byte) : ∀ (n k : Nat), decFrom e f n k =
    ((List.range n).map fun i => uval e f (offs e f k i)).takeWhile (· ≠ 0)
  | 0, _ => rfl
  | n + 1, k => by
    rw [decFrom, List.range_succ_eq_map, List.map_cons, List.map_map]
    by_cases h : uval e f k = 0
    · rw [if_pos h, List.takeWhile_cons_of_neg (by simp [offs, h])]
    · rw [if_neg h, List.takeWhile_cons_of_pos (by simp [offs, h]), decFrom_eq e f n]
      congr 2
      apply List.map_congr_left
      intro i _
      simp only [Function.comp_apply, offs_succ]

theorem decode_eq (e : Enc) (bs : List Byte) : decode e bs = decFrom e (strm bs) (bs.length + 1) 0 :=
  (decFrom_eq e _ _ _).symm

namespace Printer

/-- The strings the printer reads right: bytes, with a length that the 32 bit counters can hold. -/
def Fits (bs : List Byte) : Prop := (∀ b ∈ bs, b < 256) ∧ bs.length + 16 ≤ 2 ^ 32

theorem printLoop_run {e : Enc} {src : List Byte} (hs : Fits src) (g : UChar → List Byte) :
    ∀ (n k : Nat) (t : TextScanner CStr), TRel (cstrSource src hs.1) e t { k, ld := .no } →
    k < src.length + 8 → src.length < k + n → 0 < n →
    (printLoop g n t).1 = .ok ((decFrom e (strm src) n k).flatMap g) := by
  have hS : (cstrSource src hs.1).Total := fun _ => ⟨trivial, trivial⟩
  have h32 := hs.2
  intro n
  induction n with
  | zero =>
    intro k t h h1 h2 h0
    omega
  | succ n ih =>
    intro k t h h1 h2 _
    obtain ⟨hl, hv, -⟩ := uchar_congr e (f := cyc src) (g := strm src) (k := k)
      fun i hi => cyc_strm (by omega) (by omega)
    have h8 := ulen_le e (strm src) k
    have hpos := ulen_pos e (strm src) k
    obtain ⟨v, t1, a1, e1, e2, h3⟩ := h.chr.ok hS
    cases e2
    unfold printLoop
    rw [M.bind_ok e1]
    rw [hv]
    unfold decFrom
    by_cases hz : uval e (strm src) k = 0
    · rw [if_pos hz, if_pos hz]; rfl
    · rw [if_neg hz, if_neg hz]
      have hlt : k < src.length := by
        refine Nat.lt_of_not_le fun hge => ?_
        exact hz (uval_zero e _ k (fun j h1 _ => strm_end src j (by omega))).1
      obtain ⟨v', t2, a2, e3, e4, h4⟩ := h3.skip.ok hS
      cases e4
      rw [M.bind_ok e3]
      simp only [hl] at h4
      have := ih (k + ulen e (strm src) k) t2 h4 (by omega) (by omega) (by omega)
      rcases hp : printLoop g n t2 with ⟨r, t3⟩
      rw [hp] at this
      cases this
      rw [M.bind_ok hp]
      rfl

theorem pushAll_list (bs : List Byte) (l : List Byte) : pushAll bs l = (.ok (), l ++ bs) := by
  induction bs generalizing l with
  | nil => simp [pushAll]
  | cons b bs ih =>
    have h : (OutBuffer.push b : M (List Byte) Unit) l = (.ok (), l ++ [b]) := rfl
    show (OutBuffer.push b >>= fun _ => pushAll bs) l = _
    rw [M.bind_ok h, ih]
    simp

theorem emit_run (bs : List Byte) (s : Printer) : emit bs s = (.ok (), { s with buf := s.buf ++ bs }) := by
  unfold emit M.zoom
  rw [pushAll_list]

theorem printChars_run {src : List Byte} (hs : Fits src) (g : UChar → List Byte) (s : Printer) :
    printChars g src s = (.ok (), { s with buf := s.buf ++ (decode s.app src).flatMap g }) := by
  have h := printLoop_run hs g (src.length + 1) 0 (TextScanner.mk' s.app (CStr.mk' src))
    (TRel.init _ _ _ trivial (cstrSource_start src hs.1)) (by omega) (by omega) (by omega)
  unfold printChars
  rw [M.bind_ok (M.get_run s), h, ← decode_eq]
  exact emit_run _ s

theorem printToBuffer_run {src : List Byte} (hs : Fits src) (s : Printer) :
    printToBuffer src s = (.ok (), { s with buf := s.buf ++ (decode s.app src).flatMap s.out.print }) := by
  unfold printToBuffer
  rw [M.bind_ok (M.get_run s)]
  exact printChars_run hs _ s

theorem printChar_run (c : Byte) (s : Printer) :
    printChar c s = (.ok (), { s with buf := s.buf ++ s.out.print c }) := by
  unfold printChar
  rw [M.bind_ok (M.get_run s)]
  exact emit_run _ s

/-- What is printed for an ASCII character. -/
def subst (tab : List (Byte × List Byte)) (c : Byte) : List Byte :=
  match tab.find? (·.1 = c) with
  | some (_, str) => str
  | none => [c]

theorem printEsc_eq (out : Enc) (tab : List (Byte × List Byte)) (c : Byte) :
    printEsc out tab c = (subst tab c).flatMap out.print := by
  unfold printEsc subst
  cases tab.find? (·.1 = c) <;> simp

theorem subst_content {c : UChar} (h0 : c ≠ 0) (h : c < 128) : subst contentTab c = escContent c := by
  have : ∀ c : Fin 128, c.1 ≠ 0 → subst contentTab c.1 = escContent c.1 := by decide +kernel
  exact this ⟨c, h⟩ h0

theorem subst_attr {c : UChar} (h0 : c ≠ 0) (h : c < 128) : subst attrTab c = escAttr c := by
  have : ∀ c : Fin 128, c.1 ≠ 0 → subst attrTab c.1 = escAttr c.1 := by decide +kernel
  exact this ⟨c, h⟩ h0

theorem escContent_big {c : UChar} (h : 128 ≤ c) : escContent c = [c] := by
  unfold escContent
  repeat rw [if_neg (by omega)]

theorem escAttr_big {c : UChar} (h : 128 ≤ c) : escAttr c = [c] := by
  unfold escAttr
  repeat rw [if_neg (by omega)]
  exact escContent_big h

theorem decode_ne (e : Enc) (bs : List Byte) : ∀ c ∈ decode e bs, c ≠ 0 := by
  intro c hc
  have : ∀ (l : List UChar), ∀ c ∈ l.takeWhile (· ≠ 0), c ≠ 0 := by
    intro l
    induction l with
    | nil => intro c hc; cases hc
    | cons a l ih =>
      intro c hc
      by_cases ha : a = 0
      · rw [List.takeWhile_cons_of_neg (by simp [ha])] at hc; cases hc
      · rw [List.takeWhile_cons_of_pos (by simp [ha])] at hc
        rcases List.mem_cons.1 hc with rfl | hc
        · exact ha
        · exact ih c hc
  exact this _ c hc

theorem flatMap_congr' {α β : Type} {l : List α} {f g : α → List β} (h : ∀ a ∈ l, f a = g a) :
    l.flatMap f = l.flatMap g := by
  induction l with
  | nil => rfl
  | cons a l ih =>
    rw [List.flatMap_cons, List.flatMap_cons, h a (by simp), ih fun b hb => h b (by simp [hb])]

theorem printSubst_run {tab : List (Byte × List Byte)} {esc : UChar → List UChar}
    (h1 : ∀ c, c ≠ 0 → c < 128 → subst tab c = esc c) (h2 : ∀ c, 128 ≤ c → esc c = [c]) {src : List Byte}
    (hs : Fits src) (s : Printer) :
    printSubst tab src s =
      (.ok (), { s with buf := s.buf ++ ((decode s.app src).flatMap esc).flatMap s.out.print }) := by
  unfold printSubst
  rw [M.bind_ok (M.get_run s)]
  refine (printChars_run hs _ s).trans ?_
  rw [List.flatMap_assoc]
  rw [flatMap_congr' (g := fun c => (esc c).flatMap s.out.print)]
  intro c hc
  have h0 := decode_ne _ _ c hc
  by_cases h : c < 128
  · rw [if_pos h, printEsc_eq, h1 c h0 h]
  · rw [if_neg h, h2 c (by omega)]; simp

theorem printContent_run {src : List Byte} (hs : Fits src) (s : Printer) :
    printContent src s = (.ok (), { s with buf := s.buf ++ (Piece.chars s.app (.text src)).flatMap s.out.print }) :=
  printSubst_run (fun _ => subst_content) (fun _ => escContent_big) hs s

theorem printAttributeValue_run {src : List Byte} (hs : Fits src) (s : Printer) :
    printAttributeValue src s =
      (.ok (), { s with buf := s.buf ++ (Piece.chars s.app (.quoted src)).flatMap s.out.print }) := by
  unfold printAttributeValue
  rw [M.bind_ok (printChar_run 34 s), M.bind_ok (printSubst_run (fun _ => subst_attr) (fun _ => escAttr_big) hs _),
    printChar_run]
  simp [Piece.chars, Spec.ascii]

/-! ## Literals -/

theorem decFrom_ascii {e : Enc} (he : AsciiBased e) {tl : List Byte} : ∀ (bs pre : List Byte) (n : Nat),
    (∀ b ∈ bs, 1 ≤ b ∧ b < 128) → (tl = [] ∨ tl = [0]) → bs.length < n →
    decFrom e (strm (pre ++ bs ++ tl)) n pre.length = bs := by
  intro bs
  induction bs with
  | nil =>
    intro pre n _ ht hn
    obtain ⟨n, rfl⟩ : ∃ m, n = m + 1 := ⟨n - 1, by simp at hn; omega⟩
    have hz : strm (pre ++ [] ++ tl) pre.length = 0 := by rcases ht with rfl | rfl <;> simp [strm]
    unfold decFrom
    rw [if_pos]
    cases e with
    | utf8 => simp only [uval, utf8Val, hz]; rfl
    | isolatin p => simp only [uval, hz]; rfl
    | _ => exact he.elim
  | cons b bs ih =>
    intro pre n hb ht hn
    obtain ⟨n, rfl⟩ : ∃ m, n = m + 1 := ⟨n - 1, by simp at hn; omega⟩
    have h1 := hb b (by simp)
    have hz : strm (pre ++ b :: bs ++ tl) pre.length = b := by simp [strm]
    have hu : uval e (strm (pre ++ b :: bs ++ tl)) pre.length = b ∧ ulen e (strm (pre ++ b :: bs ++ tl)) pre.length = 1 := by
      cases e with
      | utf8 =>
        refine ⟨by simp only [uval, utf8Val, hz]; rw [if_pos (by omega)], ?_⟩
        simp only [ulen, hz, utf8Len]; rw [if_pos (by omega)]
      | isolatin p => exact ⟨by simp only [uval, hz]; rw [if_pos (by omega)], rfl⟩
      | _ => exact he.elim
    unfold decFrom
    rw [hu.1, hu.2, if_neg (by omega)]
    have := ih (pre ++ [b]) n (fun x hx => hb x (by simp [hx])) ht (by simp at hn; omega)
    simp only [List.length_append, List.length_cons, List.length_nil, List.append_assoc, List.cons_append,
      List.nil_append] at this
    rw [Nat.zero_add] at this
    simp only [List.append_assoc, List.cons_append]
    rw [this]

theorem decode_ascii {e : Enc} (he : AsciiBased e) {bs : List Byte} (hb : ∀ b ∈ bs, 1 ≤ b ∧ b < 128) :
    decode e bs = bs := by
  have := decFrom_ascii he (tl := []) bs [] (bs.length + 1) hb (.inl rfl) (by omega)
  rw [decode_eq]
  simpa using this

theorem decode_ascii0 {e : Enc} (he : AsciiBased e) {bs : List Byte} (hb : ∀ b ∈ bs, 1 ≤ b ∧ b < 128) :
    decode e (bs ++ [0]) = bs := by
  have := decFrom_ascii he (tl := [0]) bs [] ((bs ++ [0]).length + 1) hb (.inr rfl) (by simp; omega)
  rw [decode_eq]
  simpa using this

/-! ## Calls -/

/-- Print characters. -/
def put (s : Printer) (cs : List UChar) : Printer := { s with buf := s.buf ++ cs.flatMap s.out.print }

theorem put_put (s : Printer) (a b : List UChar) : put (put s a) b = put s (a ++ b) := by
  simp [put]

theorem put_nil (s : Printer) : put s [] = s := by simp [put]

theorem str_run {src : List Byte} (hs : Fits src) (s : Printer) :
    printToBuffer src s = (.ok (), put s (decode s.app src)) := printToBuffer_run hs s

theorem lit_run (s : Printer) {x : String} (hb : ∀ b ∈ lit x, 1 ≤ b ∧ b < 128)
    (hl : (lit x).length ≤ 1000) : printToBuffer (lit x) s = (.ok (), put s (fixed s.app x)) :=
  str_run ⟨fun b h => by have := hb b h; omega, by omega⟩ s

/-- The literals with terminating NUL. -/
theorem decode_lit0 (app : Enc) {x : String} (hx : x = "<!DOCTYPE " ∨ x = ">") : decode app (lit x ++ [0]) = fixed app x := by
  have key : AsciiBased app → decode app (lit x ++ [0]) = fixed app x := by
    intro h
    have hb : ∀ b ∈ lit x, 1 ≤ b ∧ b < 128 := by rcases hx with rfl | rfl <;> decide +kernel
    rw [decode_ascii0 h hb]
    exact (decode_ascii h hb).symm
  cases app with
  | utf8 => exact key trivial
  | isolatin p => exact key trivial
  | utf16 b => rcases hx with rfl | rfl <;> clear key <;> revert b <;> decide +kernel
  | ucs2 b => rcases hx with rfl | rfl <;> clear key <;> revert b <;> decide +kernel
  | ucs4 b => rcases hx with rfl | rfl <;> clear key <;> revert b <;> decide +kernel

theorem lit0_run (s : Printer) {x : String} (hx : x = "<!DOCTYPE " ∨ x = ">") :
    printToBuffer (lit x ++ [0]) s = (.ok (), put s (fixed s.app x)) := by
  rw [str_run ⟨by rcases hx with rfl | rfl <;> decide +kernel, by rcases hx with rfl | rfl <;> decide +kernel⟩,
    decode_lit0 _ hx]

theorem char_run (c : Byte) (s : Printer) : printChar c s = (.ok (), put s [c]) := by
  rw [printChar_run]
  simp [put]

theorem str_put {src : List Byte} (hs : Fits src) (s : Printer) (cs : List UChar) :
    printToBuffer src (put s cs) = (.ok (), put s (cs ++ decode s.app src)) := by
  rw [str_run hs, put_put]
  rfl

theorem lit_put (s : Printer) (cs : List UChar) {x : String}
    (hb : ∀ b ∈ lit x, 1 ≤ b ∧ b < 128) (hl : (lit x).length ≤ 1000) :
    printToBuffer (lit x) (put s cs) = (.ok (), put s (cs ++ fixed s.app x)) := by
  rw [lit_run (put s cs) hb hl, put_put]
  rfl

theorem lit0_put (s : Printer) (cs : List UChar) {x : String} (hx : x = "<!DOCTYPE " ∨ x = ">") :
    printToBuffer (lit x ++ [0]) (put s cs) = (.ok (), put s (cs ++ fixed s.app x)) := by
  rw [lit0_run (put s cs) hx, put_put]
  rfl

/-- With an encoding based on ASCII the fixed text is printed as it is. -/
theorem fixed_ascii {app : Enc} (he : AsciiBased app) {x : String} (hb : ∀ b ∈ Spec.ascii x, 1 ≤ b ∧ b < 128) :
    fixed app x = Spec.ascii x := decode_ascii he hb

theorem Fits.cstr {bs : List Byte} (h : Fits bs) : Fits (cstr bs) := by
  have h1 : (Printer.cstr bs).Sublist bs := List.takeWhile_sublist _
  exact ⟨fun b hb => h.1 b (h1.mem hb), by have := h1.length_le; have := h.2; omega⟩

/-- The place that corresponds to a state. -/
def placeOf : PrintState → Place
  | .Init => .start
  | .Content => .content
  | .TagAttribute => .attr
  | .TagElement => .tag

/-- The printer represents a document. -/
structure PRel (limit : Nat) (d : Doc) (s : Printer) : Prop where
  place : d.place = placeOf s.state
  tags : TagStack.Ok limit s.tagstack d.tags
  fits : ∀ n ∈ d.tags, Fits n

/-- The effect of a call on the printer: the result, and what it prints. -/
def Effect (limit : Nat) (s : Printer) (e : Option (List Piece × Doc)) (need : Nat) (d : Doc)
    (r : Res Bool × Printer) : Prop :=
  r.1 = .ok e.isSome ∧ PRel limit (e.getD ([], d)).2 r.2 ∧
    r.2.buf = s.buf ++ ((e.getD ([], d)).1.flatMap (Piece.chars s.app)).flatMap s.out.print ∧
    r.2.app = s.app ∧ r.2.out = s.out ∧ r.2.tagstack.pos ≤ s.tagstack.pos + need

variable {limit : Nat} {d : Doc} {s : Printer}

theorem Effect.reject (h : PRel limit d s) (m : Option String) {need : Nat} :
    Effect limit s none need d (.ok false, { s with lasterror := m }) :=
  ⟨rfl, ⟨h.place, h.tags, h.fits⟩, by simp, rfl, rfl, Nat.le_add_right _ _⟩

/-- An accepted call that prints and changes the state. -/
theorem Effect.accept (h : PRel limit d s) {ps : List Piece} {cs : List UChar} {st : PrintState} {need : Nat}
    (hc : ps.flatMap (Piece.chars s.app) = cs) :
    Effect limit s (some (ps, { d with place := placeOf st })) need d (.ok true, { put s cs with state := st }) :=
  ⟨rfl, ⟨rfl, h.tags, h.fits⟩, by simp [put, hc], rfl, rfl, Nat.le_add_right _ _⟩

theorem enter_run (st : PrintState) (s : Printer) : enter st s = (.ok true, { s with state := st }) := rfl

theorem name_run (e : Option (List Byte)) {app : Enc} (h1 : ∀ x ∈ e, Fits x) (s' : Printer)
    (ha : s'.app = app) : printToBuffer (encodingName e) s' = (.ok (), put s' (encodingText app e)) := by
  subst ha
  cases e with
  | none => exact lit_run s' (by decide +kernel) (by decide +kernel)
  | some e => exact str_run (h1 e rfl).cstr s'

theorem header_run (h : PRel limit d s) (e sa : Option (List Byte))
    (h1 : ∀ x ∈ e, Fits x) (h2 : ∀ x ∈ sa, Fits x) :
    Effect limit s (docStep d (.header e sa)) 0 d (printHeader e sa s) := by
  unfold printHeader
  rw [M.bind_ok (M.get_run s)]
  by_cases hs : s.state = .Init
  · have hp : d.place = .start := by rw [h.place, hs]; rfl
    rw [if_neg (by simp [hs]), M.bind_ok (lit_run s (by decide +kernel) (by decide +kernel))]
    simp only [docStep, if_pos hp]
    rw [M.bind_ok (name_run e (app := s.app) h1 (put s _) rfl), put_put]
    cases sa with
    | none =>
      unfold headerTail
      rw [M.bind_ok (lit_put s _ (by decide +kernel) (by decide +kernel)), enter_run]
      refine Effect.accept h (st := .Content) ?_
      simp [Piece.chars]
    | some sa =>
      unfold headerTail
      have : (do
          printToBuffer (lit "\" standalone=\"")
          printToBuffer (cstr sa)
          printToBuffer (lit "\"?>\n") : M Printer Unit) (put s (fixed s.app "<?xml version=\"1.0\" encoding=\"" ++ encodingText s.app e)) =
          (.ok (), put s (fixed s.app "<?xml version=\"1.0\" encoding=\"" ++ encodingText s.app e ++ fixed s.app "\" standalone=\"" ++
            decode s.app (cstr sa) ++ fixed s.app "\"?>\n")) := by
        rw [M.bind_ok (lit_put s _ (by decide +kernel) (by decide +kernel)),
          M.bind_ok (str_put (h2 sa rfl).cstr s _), lit_put s _ (by decide +kernel) (by decide +kernel)]
      rw [M.bind_ok this, enter_run]
      refine Effect.accept h (st := .Content) ?_
      simp [Piece.chars, untilNul, cstr]
  · have hp : d.place ≠ .start := by
      rw [h.place]
      cases hst : s.state <;> simp [placeOf]
      exact hs hst
    rw [if_pos hs]
    simp only [docStep, if_neg hp]
    exact Effect.reject h _

theorem doctype_run (h : PRel limit d s) (r p sy : Option (List Byte))
    (h1 : ∀ x ∈ r, Fits x) (h2 : ∀ x ∈ p, Fits x) (h3 : ∀ x ∈ sy, Fits x) :
    Effect limit s (docStep d (.doctype r p sy)) 0 d (printDoctype r p sy s) := by
  have key : ∀ {pc : Piece} {cs : List UChar}, pc.chars s.app = cs →
      Effect limit s (some ([pc], d)) 0 d (.ok true, put s cs) := by
    intro pc cs hc
    exact ⟨rfl, ⟨h.place, h.tags, h.fits⟩, by simp [put, hc], rfl, rfl, Nat.le_add_right _ _⟩
  cases r with
  | none =>
    exact ⟨rfl, h, by simp [docStep, printDoctype], rfl, rfl, Nat.le_add_right _ _⟩
  | some r =>
    have hr := (h1 r rfl).cstr
    cases sy with
    | none =>
      cases p with
      | some p => exact Effect.reject h _
      | none =>
        simp only [printDoctype]
        rw [M.bind_ok (lit0_run s (.inl rfl)), M.bind_ok (str_put hr s _),
          M.bind_ok (lit0_put s _ (.inr rfl))]
        exact key (by simp [Piece.chars, untilNul, cstr])
    | some sy =>
      have hsy := (h3 sy rfl).cstr
      cases p with
      | none =>
        simp only [printDoctype]
        rw [M.bind_ok (lit_run s (by decide +kernel) (by decide +kernel)), M.bind_ok (str_put hr s _),
          M.bind_ok (lit_put s _ (by decide +kernel) (by decide +kernel)), M.bind_ok (str_put hsy s _),
          M.bind_ok (lit_put s _ (by decide +kernel) (by decide +kernel))]
        exact key (by simp [Piece.chars, untilNul, cstr])
      | some p =>
        have hpp := (h2 p rfl).cstr
        simp only [printDoctype]
        rw [M.bind_ok (lit_run s (by decide +kernel) (by decide +kernel)), M.bind_ok (str_put hr s _),
          M.bind_ok (lit_put s _ (by decide +kernel) (by decide +kernel)), M.bind_ok (str_put hpp s _),
          M.bind_ok (lit_put s _ (by decide +kernel) (by decide +kernel)), M.bind_ok (str_put hsy s _),
          M.bind_ok (lit_put s _ (by decide +kernel) (by decide +kernel))]
        exact key (by simp [Piece.chars, untilNul, cstr])

/-- Leaving the open tag. -/
theorem exit_cases (h : PRel limit d s) :
    (leave d.place = none ∧ ∃ m, exitTagContext s = (.ok false, { s with lasterror := m })) ∨
    ∃ ps s1, leave d.place = some ps ∧ exitTagContext s = (.ok true, s1) ∧
      s1 = { put s (ps.flatMap (Piece.chars s.app)) with state := .Content } := by
  have hp := h.place
  obtain ⟨st, ts, app, out, le, buf⟩ := s
  cases st with
  | Init => exact .inl ⟨by rw [hp]; rfl, _, rfl⟩
  | Content => exact .inr ⟨[], _, by rw [hp]; rfl, rfl, by simp [put]⟩
  | TagAttribute =>
    refine .inr ⟨[.gt], _, by rw [hp]; rfl, ?_, rfl⟩
    show (printChar 62 >>= fun _ => enter .Content) _ = _
    rw [M.bind_ok (printChar_run _ _)]
    simp [put, Piece.chars, Spec.ascii, enter, M.bind_run]
  | TagElement =>
    refine .inr ⟨[.gt], _, by rw [hp]; rfl, ?_, rfl⟩
    show (printChar 62 >>= fun _ => enter .Content) _ = _
    rw [M.bind_ok (printChar_run _ _)]
    simp [put, Piece.chars, Spec.ascii, enter, M.bind_run]

theorem exit_run (h : PRel limit d s) : Effect limit s (docStep d .exit) 0 d (exitTagContext s) := by
  rcases exit_cases h with ⟨h1, m, h2⟩ | ⟨ps, s1, h1, h2, hs1⟩
  · rw [h2]
    simp only [docStep, h1, Option.map_none]
    exact Effect.reject h _
  · rw [h2, hs1]
    simp only [docStep, h1, Option.map_some]
    exact Effect.accept h (st := .Content) rfl

theorem attr_run (h : PRel limit d s) {n : List Byte} (hn : Fits n) :
    Effect limit s (docStep d (.attr n)) 0 d (printAttribute n s) := by
  unfold printAttribute
  rw [M.bind_ok (M.get_run s)]
  by_cases hs : s.state = .TagElement
  · have hp : d.place = .tag := by rw [h.place, hs]; rfl
    simp only [docStep, if_pos hp]
    rw [if_pos hs, M.bind_ok (char_run _ s), M.bind_ok (str_run hn _), put_put, M.bind_ok (char_run _ _), put_put,
      enter_run]
    refine Effect.accept h (st := .TagAttribute) ?_
    simp [Piece.chars, put, Spec.ascii]
  · have hp : d.place ≠ .tag := by
      rw [h.place]
      cases hst : s.state <;> simp [placeOf]
      exact hs hst
    rw [if_neg hs]
    simp only [docStep, if_neg hp]
    exact Effect.reject h _

theorem value_run (h : PRel limit d s) {v : List Byte} (hv : Fits v) :
    Effect limit s (docStep d (.value v)) 0 d (printValue v s) := by
  unfold printValue
  rw [M.bind_ok (M.get_run s)]
  by_cases hs : s.state = .TagAttribute
  · have hp : d.place = .attr := by rw [h.place, hs]; rfl
    simp only [docStep, if_pos hp]
    rw [if_pos hs, M.bind_ok (printAttributeValue_run hv s), enter_run]
    exact Effect.accept h (st := .TagElement) (by simp)
  · have hp : d.place ≠ .attr := by
      rw [h.place]
      cases hst : s.state <;> simp [placeOf]
      exact hs hst
    rw [if_neg hs]
    simp only [docStep, if_neg hp]
    rcases exit_cases h with ⟨h1, m, h2⟩ | ⟨ps, s1, h1, h2, hs1⟩
    · rw [M.bind_ok h2, if_pos rfl]
      simp only [h1, Option.map_none]
      exact Effect.reject h _
    · rw [M.bind_ok h2, if_neg (by simp), M.bind_ok (printContent_run hv _)]
      simp only [h1, Option.map_some]
      subst hs1
      refine ⟨rfl, ⟨rfl, h.tags, h.fits⟩, ?_, rfl, rfl, Nat.le_add_right _ _⟩
      simp [put]

theorem open_run (hl : limit < 2 ^ 63) (h : PRel limit d s) {n : List Byte} (hn : Fits n)
    (hneed : 2 * (s.tagstack.pos + n.length + 16) ≤ limit) :
    Effect limit s (docStep d (.open_ n)) (n.length + 16) d (printOpenTag limit n s) := by
  unfold printOpenTag
  rcases exit_cases h with ⟨h1, m, h2⟩ | ⟨ps, s1, h1, h2, hs1⟩
  · rw [M.bind_ok h2, if_pos rfl]
    simp only [docStep, h1, Option.map_none]
    exact Effect.reject h _
  · obtain ⟨t, g1, g2, g3⟩ := TagStack.push_run (fuel := 64) (pp := n) (Nat.le_refl _) h.tags hneed hl
    have hst : s1.tagstack = s.tagstack := by rw [hs1]; rfl
    rw [M.bind_ok h2, if_neg (by simp), M.bind_ok (char_run _ _), M.bind_ok (str_put hn _ _)]
    have : ∀ s' : Printer, s'.tagstack = s.tagstack →
        onStack (TagStack.push limit 64 n) s' = (.ok (), { s' with tagstack := t }) := by
      intro s' hs'
      unfold onStack M.zoom
      simp only [hs', g1]
    rw [M.bind_ok (this (put s1 _) hst), enter_run]
    subst hs1
    simp only [docStep, h1, Option.map_some]
    refine ⟨rfl, ⟨rfl, g2, ?_⟩, ?_, rfl, rfl, by show t.pos ≤ _; omega⟩
    · intro x hx
      rcases List.mem_cons.1 hx with rfl | hx
      · exact hn
      · exact h.fits x hx
    · simp [put, Piece.chars, Spec.ascii]

theorem closed_run (s : Printer) {n : List Byte} {ns : List (List Byte)} (h : TagStack.Ok limit s.tagstack (n :: ns)) :
    ∃ t, TagStack.Ok limit t ns ∧ t.pos ≤ s.tagstack.pos ∧ closed s =
      (.ok true, put { s with tagstack := t } (if ns = [] then [10] else [])) := by
  obtain ⟨p, h1, h2, h3⟩ := TagStack.pop_run h.view
  refine ⟨_, ⟨h2.rep, h2.pos, h.cap, h.min, h.max⟩, h3, ?_⟩
  have hp : onStack TagStack.pop s = (.ok (), { s with tagstack := { s.tagstack with pos := p } }) := by
    unfold onStack M.zoom
    simp only [h1]
  unfold closed
  rw [M.bind_ok hp, M.bind_ok (M.get_run _)]
  have he : TagStack.empty { s.tagstack with pos := p } = decide (ns = []) := by
    unfold TagStack.empty
    have := h2.rep.pos0
    simp only [List.tail_cons] at this
    simp only [this]
  simp only [he]
  by_cases hn : ns = []
  · rw [if_pos hn, if_pos (by simpa using hn), M.bind_ok (char_run _ _)]; rfl
  · rw [if_neg hn, if_neg (by simpa using hn), put_nil]; rfl

theorem close_run (h : PRel limit d s) : Effect limit s (docStep d .close) 0 d (printCloseTag s) := by
  have ht : onStack TagStack.top s = (.ok d.tags.head?, s) := by
    unfold onStack M.zoom
    rw [TagStack.top_run h.tags.view]
  unfold printCloseTag
  rw [M.bind_ok ht]
  obtain ⟨place, tags⟩ := d
  cases tags with
  | nil => exact Effect.reject h s.lasterror
  | cons n ns =>
    cases n with
    | nil => exact Effect.reject h s.lasterror
    | cons b n =>
      simp only [List.head?_cons]
      rw [M.bind_ok (M.get_run s)]
      have hpl := h.place
      simp only at hpl
      have hlast : (if ns = [] then [Piece.newline] else []).flatMap (Piece.chars s.app) =
          if ns = [] then [10] else [] := by
        split <;> simp [Piece.chars, Spec.ascii]
      have hf : ∀ x ∈ ns, Fits x := fun x hx => h.fits x (List.mem_cons_of_mem _ hx)
      cases hs : s.state with
      | Init =>
        rw [hs] at hpl
        subst hpl
        exact Effect.reject h s.lasterror
      | TagAttribute =>
        rw [hs] at hpl
        subst hpl
        exact Effect.reject h s.lasterror
      | TagElement =>
        dsimp only
        rw [M.bind_ok (char_run _ _), M.bind_ok (char_run _ _), put_put, M.bind_ok (M.modify_run _ _)]
        obtain ⟨t, g1, g2, g3⟩ := closed_run (limit := limit) { put s ([47] ++ [62]) with state := .Content } h.tags
        rw [g3]
        simp only [docStep, hpl, hs, placeOf]
        refine ⟨rfl, ⟨rfl, g1, hf⟩, ?_, rfl, rfl, g2⟩
        simp only [put, Option.getD_some, reduceCtorEq, if_false, if_true, List.flatMap_cons, hlast]
        simp [Piece.chars, Spec.ascii]
      | Content =>
        dsimp only
        rw [M.bind_ok (char_run _ _), M.bind_ok (char_run _ _), put_put, M.bind_ok (str_run (h.fits _ (by simp)) _),
          put_put, M.bind_ok (char_run _ _), put_put]
        generalize hcs : ([60] ++ [47] ++ decode (put s ([60] ++ [47])).app (b :: n) ++ [62]) = cs
        obtain ⟨t, g1, g2, g3⟩ := closed_run (limit := limit) (put s cs) h.tags
        rw [g3]
        simp only [docStep, hpl, hs, placeOf]
        refine ⟨rfl, ⟨by simp [placeOf, put, hs], g1, hf⟩, ?_, rfl, rfl, g2⟩
        simp only [put, Option.getD_some, reduceCtorEq, if_false, if_true, List.flatMap_cons, hlast]
        subst hcs
        simp [Piece.chars, Spec.ascii, put]

/-- The conditions for a call. -/
def CallOk (c : PCall) : Prop := ∀ x ∈ c.strings, Fits x

/-- The memory needed by a call. -/
def callNeed : PCall → Nat
  | .open_ n => n.length + 16
  | _ => 0

theorem call_run (hl : limit < 2 ^ 63) (h : PRel limit d s) {c : PCall} (hc : CallOk c)
    (hneed : 2 * (s.tagstack.pos + callNeed c) ≤ limit) :
    Effect limit s (docStep d c) (callNeed c) d (call limit c s) := by
  cases c with
  | header e sa =>
    exact header_run h e sa (fun x hx => hc x (by simp [PCall.strings]; exact .inl hx))
      (fun x hx => hc x (by simp [PCall.strings]; exact .inr hx))
  | doctype r p sy =>
    exact doctype_run h r p sy (fun x hx => hc x (by simp [PCall.strings]; exact .inl hx))
      (fun x hx => hc x (by simp [PCall.strings]; exact .inr (.inl hx)))
      (fun x hx => hc x (by simp [PCall.strings]; exact .inr (.inr hx)))
  | exit => exact exit_run h
  | open_ n => exact open_run hl h (hc n (by simp [PCall.strings])) (by simp only [callNeed] at hneed; omega)
  | attr n => exact attr_run h (hc n (by simp [PCall.strings]))
  | value v => exact value_run h (hc v (by simp [PCall.strings]))
  | close => exact close_run h
  | reset b =>
    refine ⟨rfl, ⟨by cases b <;> rfl, ⟨rfl, Nat.zero_le _, h.tags.cap, h.tags.min, h.tags.max⟩, nofun⟩, ?_, rfl, rfl,
      Nat.zero_le _⟩
    exact (List.append_nil _).symm
  | copy mem =>
    refine ⟨rfl, ⟨h.place, ⟨?_, ?_, rfl, h.tags.min, h.tags.max⟩, h.fits⟩, ?_, rfl, rfl, Nat.le_add_right _ _⟩
    · refine TagStack.Rep.congr _ (fun j hj => ?_) h.tags.rep
      exact if_pos hj
    · show s.tagstack.pos ≤ s.tagstack.size
      rw [← h.tags.cap]
      exact h.tags.pos
    · exact (List.append_nil _).symm

theorem nameNeed_cons (c : PCall) (cs : List PCall) : nameNeed (c :: cs) = callNeed c + nameNeed cs := by
  cases c <;> simp [nameNeed, callNeed]

theorem calls_run (hl : limit < 2 ^ 63) (cs : List PCall) : ∀ {d : Doc} {s : Printer}, PRel limit d s →
    (∀ c ∈ cs, CallOk c) → 2 * (s.tagstack.pos + nameNeed cs) ≤ limit →
    ∃ s', calls limit cs s = (.ok (docRun cs d).1, s') ∧ PRel limit (docRun cs d).2.2 s' ∧
      s'.buf = s.buf ++ ((docRun cs d).2.1.flatMap (Piece.chars s.app)).flatMap s.out.print ∧
      s'.app = s.app ∧ s'.out = s.out := by
  induction cs with
  | nil => intro d s h _ _; exact ⟨s, rfl, h, by simp [docRun], rfl, rfl⟩
  | cons c cs ih =>
    intro d s h hc hn
    rw [nameNeed_cons] at hn
    obtain ⟨h1, h2, h3, h4, h5, h6⟩ := call_run hl h (hc c (by simp)) (by omega)
    rcases hcall : call limit c s with ⟨r, s1⟩
    rw [hcall] at h1 h2 h3 h4 h5 h6
    cases h1
    simp only at h2 h3 h4 h5 h6
    obtain ⟨s2, g1, g2, g3, g4, g5⟩ := ih h2 (fun c' hc' => hc c' (by simp [hc'])) (by omega)
    have hrun : calls limit (c :: cs) s = (.ok ((docStep d c).isSome :: (docRun cs ((docStep d c).getD ([], d)).2).1), s2) := by
      unfold calls
      rw [M.bind_ok hcall, M.bind_ok g1]
      rfl
    have hspec : docRun (c :: cs) d = ((docStep d c).isSome :: (docRun cs ((docStep d c).getD ([], d)).2).1,
        ((docStep d c).getD ([], d)).1 ++ (docRun cs ((docStep d c).getD ([], d)).2).2.1,
        (docRun cs ((docStep d c).getD ([], d)).2).2.2) := by
      rw [docRun]
      cases docStep d c <;> rfl
    refine ⟨s2, ?_, ?_, ?_, g4.trans h4, g5.trans h5⟩
    · rw [hspec]; exact hrun
    · rw [hspec]; exact g2
    · rw [hspec, g3, h3]
      simp only [h4, h5, List.flatMap_append, List.append_assoc]

theorem prel_new (limit : Nat) (mem : Nat → Byte) (app out : Enc) (sub : Bool) :
    PRel limit (Doc.init sub) (new mem app out sub) :=
  ⟨by cases sub <;> rfl, TagStack.ok_new limit mem, nofun⟩

end Printer

end TW
