import Verif.Proofs.Masks
import Verif.Proofs.Skips
import Verif.Proofs.PathNames
import Verif.Proofs.Escape
import Verif.Spec.Grammar

/-!
# Reading a document of the grammar
-/

namespace TW

open Spec

namespace Mach

variable {e output : Enc} {f : Nat → Byte} {mask : Nat}

/-- The byte classified for a character. -/
def low (c : UChar) : Byte := if c < 128 then c else 255

theorem low_lt (c : UChar) : low c < 256 := by unfold low; split <;> omega

theorem low_ascii {c : UChar} (h : c < 128) : low c = c := if_pos h

theorem low_eq {c : UChar} {a : Byte} (ha : a < 128) : low c = a ↔ c = a := by
  unfold low
  split <;> omega

/-- The codes `cs` stand at `k`, and nothing behind them. -/
def Here (e : Enc) (f : Nat → Byte) (k : Nat) (cs : List UChar) : Prop :=
  At f k (cs.flatMap e.print) ∧ ∀ j, k + (cs.flatMap e.print).length ≤ j → f j = 0

/-- The first of the codes, as it is classified, and the rest; 0 at the end. -/
inductive Hd (e : Enc) : List UChar → Byte → List UChar → Prop where
  | cons {c : UChar} {cs : List UChar} : Writable e c → Hd e (c :: cs) (low c) cs
  | nil : Hd e [] 0 []

theorem ascii_plain (he : PageOk e) {c : UChar} (h1 : 1 ≤ c) (h2 : c < 128) : Writable e c :=
  ⟨by omega, by omega, ascii_direct he h1 h2⟩

theorem Hd.ascii (he : PageOk e) {c : UChar} {cs : List UChar} (h1 : 1 ≤ c) (h2 : c < 128) : Hd e (c :: cs) c cs := by
  have := Hd.cons (cs := cs) (ascii_plain he h1 h2)
  rwa [low_ascii h2] at this

theorem Here.char (he : PageOk e) {k : Nat} {c : UChar} {cs : List UChar} (h : Here e f k (c :: cs)) (hc : Writable e c) :
    chAt e f k = ⟨e.print c, c, low c⟩ ∧ ulen e f k = (e.print c).length ∧ Here e f (k + ulen e f k) cs := by
  obtain ⟨h1, h2⟩ := h
  rw [List.flatMap_cons, At_append] at h1
  obtain ⟨d1, d2⟩ := direct_dec e he c hc.2.1 hc.2.2 f k h1.1
  have d3 := direct_asc e he c hc.2.1 hc.1 hc.2.2 f k h1.1
  refine ⟨?_, d1, ?_, ?_⟩
  · unfold chAt
    rw [d1, d2, d3, At_slice h1.1]
    rfl
  · rw [d1]
    exact h1.2
  · intro j hj
    refine h2 j ?_
    rw [List.flatMap_cons, List.length_append]
    omega

theorem Here.nil {k : Nat} (h : Here e f k []) : uasc e f k = 0 ∧ ∀ k', k ≤ k' → Here e f k' [] := by
  obtain ⟨-, h2⟩ := h
  have h0 : ∀ j, k ≤ j → f j = 0 := fun j hj => h2 j (by simpa using hj)
  refine ⟨?_, fun k' hk => ⟨trivial, fun j hj => h0 j (by simp at hj; omega)⟩⟩
  have z0 := h0 k (Nat.le_refl _)
  have z1 := h0 (k + 1) (by omega)
  have z2 := h0 (k + 2) (by omega)
  have z3 := h0 (k + 3) (by omega)
  cases e <;> simp [uasc, uval, unit16, z0, z1, z2, z3]

theorem Here.hd (he : PageOk e) {k : Nat} {cs cs' : List UChar} {a : Byte} (h : Here e f k cs) (hc : Hd e cs a cs') :
    uasc e f k = a ∧ Here e f (k + ulen e f k) cs' := by
  cases hc with
  | cons hc =>
    obtain ⟨h1, -, h3⟩ := h.char he hc
    exact ⟨congrArg Ch.asc h1, h3⟩
  | nil => exact ⟨h.nil.1, h.nil.2 _ (Nat.le_add_right _ _)⟩

/-- Codes as characters. -/
theorem codes_span (he : PageOk e) (cs : List UChar) : ∀ {k : Nat} {rest : List UChar}, (∀ c ∈ cs, Writable e c) →
    Here e f k (cs ++ rest) → ∃ chs k', Span e f k chs k' ∧ Here e f k' rest ∧ chs.map Ch.asc = cs.map low := by
  induction cs with
  | nil => exact fun _ h => ⟨[], _, rfl, h, rfl⟩
  | cons c cs ih =>
    intro k rest hp h
    obtain ⟨h1, h2, h3⟩ := h.char he (hp c (List.mem_cons_self ..))
    obtain ⟨chs, k', g1, g2, g3⟩ := ih (fun c hc => hp c (List.mem_cons_of_mem _ hc)) h3
    exact ⟨chAt e f k :: chs, k', ⟨rfl, g1⟩, g2, by rw [List.map_cons, List.map_cons, g3, h1]⟩

theorem Span.eq {cs : List Ch} : ∀ {k k' : Nat}, Span e f k cs k' → chars e f k cs.length = cs ∧ offs e f k cs.length = k' := by
  induction cs with
  | nil => exact fun h => ⟨rfl, h⟩
  | cons c cs ih =>
    intro k k' h
    obtain ⟨h1, h2⟩ := h
    obtain ⟨g1, g2⟩ := ih h2
    refine ⟨?_, ?_⟩
    · rw [List.length_cons, chars, g1, h1]
    · rw [List.length_cons, offs_succ, g2]

theorem numeral_isSome {base : Nat} {digit : Byte → Option Nat} : ∀ {ds : List Byte} {v w : Nat},
    numeral base digit ds v = some w → ∀ d ∈ ds, (digit d).isSome = true := by
  intro ds
  induction ds with
  | nil => simp
  | cons x ds ih =>
    intro v w h d hd
    rw [numeral] at h
    cases hx : digit x with
    | none => rw [hx] at h; cases h
    | some y =>
      rw [hx] at h
      rcases List.mem_cons.1 hd with rfl | hd
      · rw [hx]; rfl
      · exact ih h d hd

/-- The characters of references. -/
def refChar (a : Byte) : Bool :=
  (48 ≤ a && a ≤ 57) || (65 ≤ a && a ≤ 70) || (97 ≤ a && a ≤ 122) || [35, 38, 59].contains a

theorem Reference.chars {as : List Byte} {c : UChar} (h : Reference as c) : ∀ a ∈ as, refChar a = true := by
  have hd : ∀ d, (decDigit d).isSome = true → refChar d = true := by
    intro d hd
    unfold decDigit at hd
    split at hd
    · unfold refChar; simp; omega
    · cases hd
  have hx : ∀ d, (hexaDigit d).isSome = true → refChar d = true := by
    intro d hd
    unfold hexaDigit at hd
    split at hd
    · unfold refChar; simp; omega
    split at hd
    · unfold refChar; simp; omega
    split at hd
    · unfold refChar; simp; omega
    · cases hd
  intro a ha
  cases h with
  | named s c hs =>
    unfold entities at hs
    simp only [List.mem_cons, List.not_mem_nil, or_false, Prod.mk.injEq] at hs
    have : ∀ s ∈ ["quot", "amp", "apos", "lt", "gt", "nbsp"], ∀ a ∈ 38 :: codes s ++ [59], refChar a = true := by decide
    refine this s ?_ a ha
    rcases hs with h | h | h | h | h | h <;> rw [h.1] <;> simp
  | dec ds c h1 h2 h3 h4 =>
    simp only [List.cons_append, List.mem_cons, List.mem_append, List.not_mem_nil, or_false] at ha
    rcases ha with rfl | rfl | ha | rfl
    · rfl
    · rfl
    · exact hd _ (numeral_isSome h3 a ha)
    · rfl
  | hex ds c h1 h2 h3 h4 =>
    simp only [List.cons_append, List.mem_cons, List.mem_append, List.not_mem_nil, or_false] at ha
    rcases ha with rfl | rfl | rfl | ha | rfl
    · rfl
    · rfl
    · rfl
    · exact hx _ (numeral_isSome h3 a ha)
    · rfl

theorem refChar_ok {a : Byte} (h : refChar a = true) : 1 ≤ a ∧ a < 128 ∧ ∀ kind : Kind, kind.ends a = false := by
  have hlt : a < 128 := by
    unfold refChar at h
    simp at h
    omega
  have : ∀ a : _root_.Fin 128, refChar a.1 = true → 1 ≤ a.1 ∧ ∀ kind ∈ [Kind.content, .word, .sq, .dq], kind.ends a.1 = false := by
    decide +kernel
  obtain ⟨h1, h2⟩ := this ⟨a, hlt⟩ h
  exact ⟨h1, hlt, fun kind => h2 kind (by cases kind <;> simp)⟩

/-- The codes of a text and the tokens it does not end. -/
theorem Glyph.Ok.codes (he : PageOk e) {kind : Kind} {g : Glyph} (h : g.Ok e kind) :
    ∀ c ∈ g.spelling, Writable e c ∧ kind.ends (low c) = false := by
  intro c hc
  rcases h with ⟨h1, h2, h3, h4, h5⟩ | h
  · rw [h1, List.mem_singleton] at hc
    subst hc
    refine ⟨h2, ?_⟩
    unfold low
    split
    · exact h5 (by assumption)
    · cases kind <;> decide
  · obtain ⟨r1, r2, r3⟩ := refChar_ok (Reference.chars h c hc)
    exact ⟨ascii_plain he r1 r2, by rw [low_ascii r2]; exact r3 kind⟩

theorem ends_255 (kind : Kind) : kind.ends 255 = false := by cases kind <;> decide

/-- The pieces of a text. -/
theorem glyph_segs (he : PageOk e) {kind : Kind} (gs : List Glyph) : ∀ {k : Nat} {rest : List UChar}, TokenText e kind gs →
    Here e f k (spell gs ++ rest) → ∃ ss k', Span e f k (ss.flatMap Seg.text) k' ∧ Here e f k' rest ∧
      (∀ user next, SegsOk user next ss) ∧ value e output ss = (meant gs).flatMap output.print ∧
      ∀ c ∈ ss.flatMap Seg.text, kind.ends c.asc = false := by
  induction gs with
  | nil => exact fun _ h => ⟨[], _, rfl, h, fun _ _ => trivial, rfl, by simp⟩
  | cons g gs ih =>
    intro k rest hok h
    have hg := hok g (List.mem_cons_self ..)
    have hcs := Glyph.Ok.codes he hg
    have hsp : spell (g :: gs) ++ rest = g.spelling ++ (spell gs ++ rest) := by simp [spell]
    rw [hsp] at h
    have hgs : TokenText e kind gs := fun g hg => hok g (List.mem_cons_of_mem _ hg)
    have hm : (meant (g :: gs)).flatMap output.print = output.print g.char ++ (meant gs).flatMap output.print := by
      simp [meant]
    rw [hm]
    rcases hg with ⟨h1, h2, h3, h4, h5⟩ | href
    · rw [h1] at h
      obtain ⟨d1, d2, d3⟩ := h.char he h2
      obtain ⟨ss, k', g1, g2, g3, g4, g5⟩ := ih hgs d3
      refine ⟨.ch (chAt e f k) :: ss, k', ⟨rfl, g1⟩, g2, fun user next => ⟨?_, g3 user next⟩, ?_, ?_⟩
      · rw [d1]
        exact fun hx => h3 ((low_eq (by omega)).1 hx)
      · rw [← g4, d1]
        unfold value
        rw [List.map_cons]
        simp only [Seg.atom]
        rw [if_neg (fun hx => h4 ((low_eq (by omega)).1 hx))]
        by_cases h10 : g.char = 10
        · rw [if_pos (by rw [h10]; rfl), h10]
          rfl
        · rw [if_neg (fun hx => h10 ((low_eq (by omega)).1 hx))]
          simp only [lines, Ch.deliver]
          by_cases heo : e = output
          · rw [if_pos heo, heo]
          · rw [if_neg heo]
      · intro c hc
        rw [List.flatMap_cons] at hc
        rcases List.mem_append.1 hc with hc | hc
        · have : c = chAt e f k := by simpa [Seg.text] using hc
          rw [this, d1]
          exact (hcs g.char (by rw [h1]; simp)).2
        · exact g5 c hc
    · obtain ⟨chs, k1, d1, d2, d3⟩ := codes_span he g.spelling (fun c hc => (hcs c hc).1) h
      obtain ⟨ss, k', g1, g2, g3, g4, g5⟩ := ih hgs d2
      have hl : g.spelling.map low = g.spelling := by
        conv => rhs; rw [← List.map_id g.spelling]
        exact List.map_congr_left fun a ha => low_ascii (refChar_ok (Reference.chars href a ha)).2.1
      rw [hl] at d3
      refine ⟨.ref chs g.char :: ss, k', ?_, g2, fun user next => ⟨by rw [d3]; exact href, g3 user next⟩, ?_, ?_⟩
      · rw [List.flatMap_cons]
        exact d1.append g1
      · rw [← g4]
        rfl
      · intro c hc
        rw [List.flatMap_cons] at hc
        rcases List.mem_append.1 hc with hc | hc
        · have : c.asc ∈ g.spelling := by rw [← d3]; exact List.mem_map_of_mem hc
          exact (refChar_ok (Reference.chars href _ this)).2.2 kind
        · exact g5 c hc

/-- The states before the XML header. -/
def early : List STMState := [.START, .STARTTAG, .XTAG]

/-- Between two characters of the document. -/
structure Rdy (output : Enc) (st : STMState) (k : Nat) (A : Cfg) : Prop where
  state : A.state = st
  src : A.src = k
  id : A.tok.id = .Start
  inv : Inv0 A
  error : A.error = .Ok
  output : A.output = output
  out : st ∈ early → A.out = []

/-- All items are asked for. -/
def Full (mask : Nat) : Prop := ∀ t : ElementType, mask.testBit t.toNat = true

/-- From the state `st`, with the codes `cs` in front, the items are `l`. -/
def Gives (e output : Enc) (st : STMState) (cs : List UChar) (l : List TItem) : Prop :=
  ∀ f k A, Here e f k cs → Rdy output st k A → ∀ calls : List (Nat × Bool), calls.length = l.length →
    (∀ x ∈ calls, Full x.1) → ∃ os, Runs e f calls A os ∧
      os.map (fun x => (x.1, x.2.out, x.2.error)) = l.map fun i => (i.1, i.2.flatMap output.print, Err.Ok)

variable {st st' : STMState} {cs cs' : List UChar} {l : List TItem} {a : Byte}

/-- The states before the header are entered only from such states, without action. -/
theorem early_next : ∀ s ∈ STMState.all, ∀ c, ∀ s' ∈ early, (stm s).next c = some s' → s ∈ early ∧ (stm s).action = none := by
  intro s hs c
  revert s
  cases c <;> decide +kernel

/-- A silent step. -/
theorem Gives.step (h : ∀ f k A, Here e f k cs → Rdy output st k A → ∃ k' B, Here e f k' cs' ∧ Rdy output st' k' B ∧
    ∀ mask, ∃ j, Steps e f mask j A B) (hg : Gives e output st' cs' l) : Gives e output st cs l := by
  intro f k A hh hr calls hl hm
  obtain ⟨k', B, h1, h2, h3⟩ := h f k A hh hr
  obtain ⟨os, g1, g2⟩ := hg f k' B h1 h2 calls hl hm
  exact ⟨os, (runs_later h3).2 g1, g2⟩

/-- A step with an item. -/
theorem Gives.item {i : TItem} (h : ∀ f k A mask, Here e f k cs → Rdy output st k A → Full mask →
      ∃ m k' B, Fin e f mask m A i.1 B ∧ B.out = i.2.flatMap output.print ∧ Here e f k' cs' ∧ Rdy output st' k' B)
    (hg : Gives e output st' cs' l) : Gives e output st cs (i :: l) := by
  intro f k A hh hr calls hl hm
  cases calls with
  | nil => cases hl
  | cons x calls =>
    obtain ⟨mask, c⟩ := x
    obtain ⟨m, k', B, h1, h2, h3, h4⟩ := h f k A mask hh hr (hm _ (List.mem_cons_self ..))
    have h5 : Rdy output st' k' (clr c B) := by
      cases c
      · exact h4
      · exact ⟨h4.state, h4.src, h4.id, ⟨h4.inv.buf, h4.inv.pos, h4.inv.base, h4.inv.id, h4.inv.val, h4.inv.cr⟩, rfl, h4.output,
          h4.out⟩
    obtain ⟨os, g1, g2⟩ := hg f k' _ h3 h5 calls (by simpa using hl) (fun x hx => hm x (List.mem_cons_of_mem _ hx))
    exact ⟨(i.1, B) :: os, .cons h1 g1, by rw [List.map_cons, List.map_cons, g2, h2, h4.error]⟩

/-- A character in a state without action. -/
theorem Gives.char (he : PageOk e) (ha : (stm st).action = none) (hd : Hd e cs a cs')
    (hn : (stm st).next (controlCharMap a) = some st') (hg : Gives e output st' cs' l) : Gives e output st cs l := by
  refine .step (fun f k A hh hr => ?_) hg
  obtain ⟨h1, h2⟩ := hh.hd he hd
  refine ⟨_, adv e f { idTo .Start A with state := st' }, h2, ⟨rfl, ?_, rfl, ?_, hr.error, hr.output, ?_⟩, fun mask =>
    ⟨1, .cons ?_ (.refl _)⟩⟩
  · show A.src + ulen e f A.src = _
    rw [hr.src]
  · exact ⟨hr.inv.buf, hr.inv.pos, hr.inv.base, .inl rfl, hr.inv.val, hr.inv.cr⟩
  · exact fun hx => hr.out (early_next st (STMState.mem_all _) _ _ hx hn).1
  · unfold Mach.step
    simp only [hr.state, ha]
    unfold Mach.trans cls
    rw [hr.src, h1]
    simp only [hn]
    rfl

/-- The fallback of a state without action. -/
theorem Gives.fall (he : PageOk e) (ha : (stm st).action = none) (hd : Hd e cs a cs')
    (hn : (stm st).next (controlCharMap a) = none) (hf : (stm st).fallback = some st') (hq : st' ∉ early)
    (hg : Gives e output st' cs l) : Gives e output st cs l := by
  refine .step (fun f k A hh hr => ?_) hg
  obtain ⟨h1, h2⟩ := hh.hd he hd
  refine ⟨_, { idTo .Start A with state := st' }, hh, ⟨rfl, hr.src, rfl, ?_, hr.error, hr.output, fun hx => absurd hx hq⟩, fun mask =>
    ⟨1, .cons ?_ (.refl _)⟩⟩
  · exact ⟨hr.inv.buf, hr.inv.pos, hr.inv.base, .inl rfl, hr.inv.val, hr.inv.cr⟩
  · unfold Mach.step
    simp only [hr.state, ha]
    unfold Mach.trans cls
    rw [hr.src, h1]
    simp only [hn, hf]
    rfl

/-- Characters in states without action. -/
theorem Gives.walk (he : PageOk e) (xs : List UChar) : ∀ {st : STMState}, (∀ c ∈ xs, Writable e c) →
    Mach.walk st (xs.map low) = some st' → Gives e output st' cs l → Gives e output st (xs ++ cs) l := by
  induction xs with
  | nil =>
    intro st _ hw hg
    cases hw
    exact hg
  | cons x xs ih =>
    intro st hx hw hg
    rw [List.map_cons, Mach.walk] at hw
    split at hw
    · rename_i ha
      split at hw
      · rename_i s' hs
        exact .char he ha (.cons (hx x (List.mem_cons_self ..))) hs
          (ih (fun c hc => hx c (List.mem_cons_of_mem _ hc)) hw hg)
      · cases hw
    · cases hw

/-- A token. -/
theorem Gives.token (he : PageOk e) {op : STMAction} {arg : ElementType} {isTok : Cc → Bool} {kind : Kind} {gs : List Glyph}
    (ha : (stm st).action = some (op, arg)) (ht : tokenDefs op = some isTok) (hk : kindOf op = some kind)
    (harg : arg ≠ .None) (hok : TokenText e kind gs) (hd : Hd e cs a cs') (hend : kind.ends a = true)
    (hn : (stm st).next (controlCharMap a) = some st') (hg : Gives e output st' cs' l) :
    Gives e output st (spell gs ++ cs) ((arg, meant gs) :: l) := by
  refine .item (fun f k A mask hh hr hm => ?_) hg
  obtain ⟨ss, k1, s1, s2, s3, s4, s5⟩ := glyph_segs (output := output) he gs hok hh
  obtain ⟨t1, t2⟩ := s1.eq
  obtain ⟨h1, h2⟩ := s2.hd he hd
  have hat : AtToken e f A op arg isTok kind (ss.flatMap Seg.text).length := by
    refine ⟨by rw [hr.state]; exact ha, ht, hk, hr.inv, hr.id, ?_, ?_⟩
    · rw [hr.src, t1]; exact s5
    · rw [hr.src, t2, h1]; exact hend
  obtain ⟨m, D, d1, d2, d3, d4, d5, d6⟩ := hat.read (hm arg) (ss := ss) (by rw [hr.src, t1]) (s3 _ _)
  have hD : Inv0 D := (steps_inv d1 (hr.inv.inv mask)).idle (by rw [d5]; rfl) (by rw [d5]; nofun)
  rw [hr.src, t2] at d3
  have hst : Mach.step e f mask D = (some arg, adv e f { idTo .Start D with state := st' }) := by
    rw [d4, hr.state]
    unfold Mach.trans cls
    rw [d3, h1]
    simp only [hn]
    unfold Scanner.loopEnd
    rw [if_neg harg]
  refine ⟨_, _, _, ⟨D, d1, hst⟩, ?_, h2, ⟨rfl, ?_, rfl, ?_, ?_, ?_, ?_⟩⟩
  · show D.out = _
    rw [d6, hr.output, s4]
  · show D.src + ulen e f D.src = _
    rw [d3]
  · exact ⟨hD.buf, hD.pos, hD.base, .inl rfl, hD.val, hD.cr⟩
  · exact d2.error.trans hr.error
  · exact d2.output.trans hr.output
  · intro hx
    have := (early_next st (STMState.mem_all _) _ _ hx hn).2
    rw [ha] at this
    cases this

/-- A state that returns an item without text and goes on at once. -/
theorem Gives.ret0 {arg : ElementType} (ha : (stm st).action = some (.Return, arg)) (h0 : (stm st).nofnext = 0)
    (hf : (stm st).fallback = some st') (hq : st' ∉ early) (hg : Gives e output st' cs l) :
    Gives e output st cs ((arg, []) :: l) := by
  refine .item (fun f k A mask hh hr hm => ?_) hg
  refine ⟨0, k, { A with tokenpos := A.src, out := [], state := st' }, ⟨A, .refl _, ?_⟩, rfl, hh, ⟨rfl, hr.src, hr.id,
    ⟨hr.inv.buf, hr.inv.pos, hr.inv.base, hr.inv.id, hr.inv.val, hr.inv.cr⟩, hr.error, hr.output, fun hx => absurd hx hq⟩⟩
  unfold Mach.step
  simp only [hr.state, ha, h0, hf, show tokenDefs .Return = none from rfl, show stringDefs .Return = none from rfl, if_true]

/-- The end of the document. -/
theorem Gives.exit : Gives e output .EXIT cs [(.Exit, [])] := by
  refine .item (cs' := cs) (st' := .EXIT) (fun f k A mask hh hr hm => ?_)
    (fun f k A hh hr calls hl hm => ⟨[], by rw [List.eq_nil_of_length_eq_zero hl]; exact .nil _, rfl⟩)
  refine ⟨0, k, { A with tokenpos := A.src, out := [] }, ⟨A, .refl _, ?_⟩, rfl, hh, ⟨hr.state, hr.src, hr.id,
    ⟨hr.inv.buf, hr.inv.pos, hr.inv.base, hr.inv.id, hr.inv.val, hr.inv.cr⟩, hr.error, hr.output, fun hx => by simp [early] at hx⟩⟩
  unfold Mach.step
  simp only [hr.state]
  rfl

/-- A state that returns an item without text with the next character. -/
theorem Gives.ret (he : PageOk e) {arg : ElementType} (ha : (stm st).action = some (.Return, arg)) (h0 : (stm st).nofnext ≠ 0)
    (harg : arg ≠ .None) (hd : Hd e cs a cs') (hn : (stm st).next (controlCharMap a) = some st') (hg : Gives e output st' cs' l) :
    Gives e output st cs ((arg, []) :: l) := by
  refine .item (fun f k A mask hh hr hm => ?_) hg
  obtain ⟨h1, h2⟩ := hh.hd he hd
  refine ⟨0, _, adv e f { idTo .Start { A with tokenpos := A.src, out := [] } with state := st' }, ⟨A, .refl _, ?_⟩, rfl, h2,
    ⟨rfl, ?_, rfl, ⟨hr.inv.buf, hr.inv.pos, hr.inv.base, .inl rfl, hr.inv.val, hr.inv.cr⟩, hr.error, hr.output, fun hx => ?_⟩⟩
  · unfold Mach.step
    simp only [hr.state, ha, h0, show tokenDefs .Return = none from rfl, show stringDefs .Return = none from rfl, if_false]
    unfold Mach.trans cls
    simp only [hr.src, h1, hn]
    unfold Scanner.loopEnd
    rw [if_neg harg]
  · show A.src + ulen e f A.src = _
    rw [hr.src]
  · have := (early_next st (STMState.mem_all _) _ _ hx hn).2
    rw [ha] at this
    cases this

theorem key_next {A B : Cfg} {i c : Nat} (hs : A.state = .XTAG) (h : InKey e f A i B)
    (hc : [120, 109, 108][i]? = some c) (hl : c < 128) (ha : uasc e f (offs e f A.src i) = c) :
    ∃ B', (∀ mask, Mach.step e f mask B = (none, B')) ∧ InKey e f A (i + 1) B' := by
  have hsB : B.state = .XTAG := by rw [h.eq]; exact hs
  have hsrc : B.src = offs e f A.src i := by rw [h.eq]
  have h1 : asc e f B = c := asc_of (by rw [hsrc]; exact ha) hl
  refine ⟨tokTo (fun t => { t with id := .ParsingKey, pos := t.pos + 1 }) (adv e f B), fun mask => ?_, ?_, (nomatch ·), ?_, h.buf⟩
  · unfold Mach.step
    rw [hsB]
    show keyStep e f (stm .XTAG) .ExpectIdentifierXML [120, 109, 108] B = _
    unfold keyStep
    simp only [if_neg h.id, h.pos, hc, if_pos h1]
  · unfold adv tokTo
    simp only [hsrc, offs]
    rw [h.eq]
  · show B.tok.pos + 1 = i + 1
    rw [h.pos]

/-- The key word of the header. -/
theorem Gives.xml (he : PageOk e) (hd : Hd e cs a cs') (hn : (stm .XTAG).next (controlCharMap a) = some st')
    (hg : Gives e output st' cs' l) :
    Gives e output .XTAG (codes "xml" ++ cs) ((.HeaderStart, codes "?xml") :: l) := by
  refine .item (fun f k A mask hh hr hm => ?_) hg
  obtain ⟨c1, hh⟩ := hh.hd he (.ascii he (c := 120) (by decide) (by decide))
  obtain ⟨c2, hh⟩ := hh.hd he (.ascii he (c := 109) (by decide) (by decide))
  obtain ⟨c3, hh⟩ := hh.hd he (.ascii he (c := 108) (by decide) (by decide))
  obtain ⟨c4, hh⟩ := hh.hd he hd
  have k0 : InKey e f A 0 A := ⟨rfl, by rw [hr.id]; exact (nomatch ·), hr.inv.pos, hr.inv.buf⟩
  rw [← hr.src] at c1 c2 c3 c4 hh
  obtain ⟨B1, s1, k1⟩ := key_next hr.state k0 rfl (by decide) c1
  obtain ⟨B2, s2, k2⟩ := key_next hr.state k1 rfl (by decide) c2
  obtain ⟨B3, s3, k3⟩ := key_next hr.state k2 rfl (by decide) c3
  have hs3 : B3.state = .XTAG := by rw [k3.eq]; exact hr.state
  have hsrc : B3.src = offs e f A.src 3 := by rw [k3.eq]
  have ho3 : B3.out = [] := by rw [k3.eq]; exact hr.out (by simp [early])
  have he3 : B3.error = .Ok := by rw [k3.eq]; exact hr.error
  have hp3 : B3.output = output := by rw [k3.eq]; exact hr.output
  have s4 : Mach.step e f mask B3 = (none, pushes [63, 120, 109, 108] (initTok .ParsingDone B3)) := by
    unfold Mach.step
    rw [hs3]
    show keyStep e f (stm .XTAG) .ExpectIdentifierXML [120, 109, 108] B3 = _
    unfold keyStep
    simp only [if_neg k3.id, k3.pos]
    rfl
  have h1 : (pushes [63, 120, 109, 108] (initTok .ParsingDone B3)).state = .XTAG := hs3
  have h2 : (pushes [63, 120, 109, 108] (initTok .ParsingDone B3)).tok.id = .ParsingDone := rfl
  have h3 : (pushes [63, 120, 109, 108] (initTok .ParsingDone B3)).src = offs e f A.src 3 := hsrc
  have h4 : (pushes [63, 120, 109, 108] (initTok .ParsingDone B3)).out = (codes "?xml").flatMap output.print := by
    show B3.out ++ [63, 120, 109, 108].flatMap B3.output.print = _
    rw [ho3, hp3]
    rfl
  have h5 : (pushes [63, 120, 109, 108] (initTok .ParsingDone B3)).error = .Ok := he3
  have h6 : (pushes [63, 120, 109, 108] (initTok .ParsingDone B3)).output = output := hp3
  have h7 : Inv0 (pushes [63, 120, 109, 108] (initTok .ParsingDone B3)) := ⟨k3.buf, rfl, Nat.zero_le _, .inr rfl, rfl, rfl⟩
  generalize pushes [63, 120, 109, 108] (initTok .ParsingDone B3) = D at s4 h1 h2 h3 h4 h5 h6 h7
  have s5 : Mach.step e f mask D = (some .HeaderStart, adv e f { idTo .Start D with state := st' }) := by
    unfold Mach.step
    rw [h1]
    show keyStep e f (stm .XTAG) .ExpectIdentifierXML [120, 109, 108] D = _
    unfold keyStep
    rw [if_pos h2]
    unfold Mach.trans cls
    rw [h3, show uasc e f (offs e f A.src 3) = a from c4]
    simp only [hn]
    rfl
  refine ⟨_, _, _, ⟨D, .cons (s1 mask) (.cons (s2 mask) (.cons (s3 mask) (.cons s4 (.refl _)))), s5⟩, h4, hh, ⟨rfl, ?_, rfl, ?_, h5, h6,
    ?_⟩⟩
  · show D.src + ulen e f D.src = _
    rw [h3]
    rfl
  · exact ⟨h7.buf, h7.pos, h7.base, .inl rfl, h7.val, h7.cr⟩
  · intro hx
    have := (early_next .XTAG (STMState.mem_all _) _ _ hx hn).2
    cases this

/-- The states that skip white space. -/
def skipping : List STMState :=
  [.START, .STARTTAG, .XTAGEND, .XTAGAISK, .XTAGAESK, .XTAGAVSK, .DOCSTART, .SEEKTOK, .XMLTAG, .TAGCLSK, .TAGAISK, .TAGAESK,
    .TAGAVSK, .ENTITY]

theorem gap_self : ∀ st ∈ skipping, (stm st).action = none ∧
    ∀ a : _root_.Fin 33, 1 ≤ a.1 → a.1 ≠ 5 → (stm st).next (controlCharMap a.1) = some st := by decide +kernel

theorem Gap.hd (he : PageOk e) {c : UChar} (h : Gap c) : Hd e (c :: cs) c cs := .ascii he h.1 (by have := h.2.1; omega)

/-- White space that is skipped. -/
theorem Gives.gaps (he : PageOk e) (hs : st ∈ skipping) : ∀ {s : List UChar}, Gaps s → Gives e output st cs l →
    Gives e output st (s ++ cs) l := by
  intro s
  induction s with
  | nil => exact fun _ h => h
  | cons c s ih =>
    intro h hg
    have hc := h c (List.mem_cons_self ..)
    exact .char he (gap_self st hs).1 (Gap.hd he hc) ((gap_self st hs).2 ⟨c, by have := hc.2.1; omega⟩ hc.1 hc.2.2)
      (ih (fun c hc => h c (List.mem_cons_of_mem _ hc)) hg)

theorem Reference.ne {as : List Byte} {c : UChar} (h : Reference as c) : ∃ rest, as = 38 :: rest := by
  cases h <;> exact ⟨_, rfl⟩

/-- The first code of a text. -/
theorem first_code (he : PageOk e) {kind : Kind} {g : Glyph} {gs : List Glyph} (h : TokenText e kind (g :: gs)) :
    ∃ a cs', Hd e (spell (g :: gs) ++ cs) a cs' ∧ kind.ends a = false ∧ a < 256 ∧ (Gap a → g.white = true) := by
  have hg := h g (List.mem_cons_self ..)
  have hc := Glyph.Ok.codes he hg
  have key : ∃ c rest, g.spelling = c :: rest ∧ (Gap (low c) → g.white = true) := by
    rcases hg with ⟨h1, -⟩ | h1
    · refine ⟨g.char, [], h1, fun hx => ?_⟩
      have : g.char < 128 := by
        unfold low at hx
        split at hx
        · assumption
        · exact absurd hx.2.1 (by omega)
      rw [low_ascii this] at hx
      exact decide_eq_true ⟨h1, hx⟩
    · obtain ⟨rest, h1⟩ := Reference.ne h1
      exact ⟨38, rest, h1, fun hx => absurd hx.2.1 (by decide)⟩
  obtain ⟨c, rest, h1, h2⟩ := key
  have h3 := hc c (by rw [h1]; simp)
  refine ⟨low c, rest ++ (spell gs ++ cs), ?_, h3.2, low_lt c, h2⟩
  have : spell (g :: gs) ++ cs = c :: (rest ++ (spell gs ++ cs)) := by simp [spell, h1]
  rw [this]
  exact .cons h3.1

/-! ## Attributes -/

/-- The states for attributes of a header or of a tag. -/
def aisk (h : Bool) : STMState := if h then .XTAGAISK else .TAGAISK
def anam (h : Bool) : STMState := if h then .XTAGANAM else .TAGANAM
def aesk (h : Bool) : STMState := if h then .XTAGAESK else .TAGAESK
def avsk (h : Bool) : STMState := if h then .XTAGAVSK else .TAGAVSK
def avid (h : Bool) : STMState := if h then .XTAGAVID else .TAGAVID
def avsq (h : Bool) : STMState := if h then .XTAGAVSQ else .TAGAVSQ
def avdq (h : Bool) : STMState := if h then .XTAGAVDQ else .TAGAVDQ
def avqe (h : Bool) : STMState := if h then .XTAGAVQE else .TAGAVQE
def nameT (h : Bool) : ElementType := if h then .HeaderAttribName else .TagAttribName
def valT (h : Bool) : ElementType := if h then .HeaderAttribValue else .TagAttribValue

theorem attr_table (h : Bool) :
    (stm (avqe h)).action = none ∧ aisk h ∈ skipping ∧ aesk h ∈ skipping ∧ avsk h ∈ skipping ∧
    (∀ a : _root_.Fin 33, 1 ≤ a.1 → a.1 ≠ 5 → Kind.word.ends a.1 = true ∧ (stm (avqe h)).next (controlCharMap a.1) = some (aisk h) ∧
      (stm (anam h)).next (controlCharMap a.1) = some (aesk h)) ∧
    (∀ a : _root_.Fin 256, Kind.word.ends a.1 = false → (stm (aisk h)).next (controlCharMap a.1) = none ∧
      (stm (avsk h)).next (controlCharMap a.1) = none) := by
  cases h <;> decide +kernel

/-- What follows behind a name or a value. -/
def After (e output : Enc) (h : Bool) (cs : List UChar) (l : List TItem) : Prop :=
  ∃ a cs' st', Hd e cs a cs' ∧ Kind.word.ends a = true ∧ (stm (avqe h)).next (controlCharMap a) = some st' ∧ Gives e output st' cs' l

variable {h : Bool}

theorem After.quoted (he : PageOk e) (ha : After e output h cs l) : Gives e output (avqe h) cs l := by
  obtain ⟨a, cs', st', h1, -, h3, h4⟩ := ha
  exact .char he (attr_table h).1 h1 h3 h4

theorem After.word (he : PageOk e) (ha : After e output h cs l) {arg : ElementType} {gs : List Glyph}
    (hact : (stm st).action = some (.ReturnIdentifier, arg)) (hnext : (stm st).next = (stm (avqe h)).next) (harg : arg ≠ .None)
    (hok : TokenText e .word gs) : Gives e output st (spell gs ++ cs) ((arg, meant gs) :: l) := by
  obtain ⟨a, cs', st', h1, h2, h3, h4⟩ := ha
  exact .token he hact rfl rfl harg hok h1 h2 (by rw [hnext]; exact h3) h4

theorem After.val (he : PageOk e) (ha : After e output h cs l) {v : Val} (hv : v.Ok e) :
    Gives e output (avsk h) (v.spell ++ cs) ((valT h, meant v.text) :: l) := by
  obtain ⟨hv, hne⟩ := hv
  obtain ⟨q, gs⟩ := v
  cases q with
  | dq =>
    have e1 : Val.spell ⟨.dq, gs⟩ ++ cs = 34 :: (spell gs ++ 34 :: cs) := by simp [Val.spell, Quote.mark]
    rw [e1]
    refine .char (st' := avdq h) he (by cases h <;> rfl) (.ascii he (by decide) (by decide)) (by cases h <;> decide +kernel) ?_
    exact .token (op := .ReturnDQString) (kind := .dq) (isTok := isDqC) (st' := avqe h) he (by cases h <;> rfl) rfl rfl (by cases h <;> decide) hv (.ascii he (by decide) (by decide)) (by decide)
      (by cases h <;> decide +kernel) (ha.quoted he)
  | sq =>
    have e1 : Val.spell ⟨.sq, gs⟩ ++ cs = 39 :: (spell gs ++ 39 :: cs) := by simp [Val.spell, Quote.mark]
    rw [e1]
    refine .char (st' := avsq h) he (by cases h <;> rfl) (.ascii he (by decide) (by decide)) (by cases h <;> decide +kernel) ?_
    exact .token (op := .ReturnSQString) (kind := .sq) (isTok := isSqC) (st' := avqe h) he (by cases h <;> rfl) rfl rfl (by cases h <;> decide) hv (.ascii he (by decide) (by decide)) (by decide)
      (by cases h <;> decide +kernel) (ha.quoted he)
  | bare =>
    have e1 : Val.spell ⟨.bare, gs⟩ ++ cs = spell gs ++ cs := by simp [Val.spell, Quote.mark]
    rw [e1]
    cases gs with
    | nil => exact absurd rfl (hne rfl)
    | cons g gs =>
      obtain ⟨a, cs', h1, h2, h3, -⟩ := first_code (cs := cs) he hv
      refine .fall (st' := avid h) he (by cases h <;> rfl) h1 ((attr_table h).2.2.2.2.2 ⟨a, h3⟩ h2).2 (by cases h <;> rfl)
        (by cases h <;> decide) ?_
      exact ha.word he (by cases h <;> rfl) (by cases h <;> rfl) (by cases h <;> decide) hv

theorem After.attr (he : PageOk e) (ha : After e output h cs l) {x : Attr} (hx : x.Ok e) :
    After e output h (x.spell ++ cs) (x.items h ++ l) := by
  obtain ⟨h1, h2, h3, h4, h5, h6, h7⟩ := hx
  obtain ⟨lead, name, before, behind, val⟩ := x
  simp only at h1 h2 h3 h4 h5 h6 h7
  obtain ⟨-, t2, t3, t4, t5, t6⟩ := attr_table h
  cases lead with
  | nil => exact absurd rfl h2
  | cons b lead =>
    have hb := h1 b (List.mem_cons_self ..)
    have tb := t5 ⟨b, by have := hb.2.1; omega⟩ hb.1 hb.2.2
    refine ⟨b, lead ++ (spell name ++ (before ++ 61 :: (behind ++ (val.spell ++ cs)))), aisk h, ?_, tb.1, tb.2.1, ?_⟩
    · have : Attr.spell ⟨b :: lead, name, before, behind, val⟩ ++ cs =
          b :: (lead ++ (spell name ++ (before ++ 61 :: (behind ++ (val.spell ++ cs))))) := by simp [Attr.spell]
      rw [this]
      exact Gap.hd he hb
    · refine .gaps he t2 (fun c hc => h1 c (List.mem_cons_of_mem _ hc)) ?_
      have hval := ha.val he h7
      have hval := hval.gaps he t4 h6
      show Gives e output _ _ ((nameT h, meant name) :: (valT h, meant val.text) :: l)
      cases name with
      | nil => exact absurd rfl h4
      | cons g gs =>
        obtain ⟨a, cs', g1, g2, g3, -⟩ := first_code (cs := before ++ 61 :: (behind ++ (val.spell ++ cs))) he h3
        refine .fall (st' := anam h) he (by cases h <;> rfl) g1 (t6 ⟨a, g3⟩ g2).1 (by cases h <;> rfl) (by cases h <;> decide) ?_
        cases before with
        | nil =>
          exact .token (op := .ReturnIdentifier) (kind := .word) (isTok := isTagC) (st' := avsk h) he (by cases h <;> rfl) rfl rfl
            (by cases h <;> decide) h3 (.ascii he (c := 61) (by decide) (by decide)) (by decide) (by cases h <;> decide +kernel) hval
        | cons b' before =>
          have hb' := h5 b' (List.mem_cons_self ..)
          have tb' := t5 ⟨b', by have := hb'.2.1; omega⟩ hb'.1 hb'.2.2
          refine .token (op := .ReturnIdentifier) (kind := .word) (isTok := isTagC) (st' := aesk h) he (by cases h <;> rfl) rfl rfl
            (by cases h <;> decide) h3 (Gap.hd he hb') tb'.1 tb'.2.2 ?_
          refine .gaps he t3 (fun c hc => h5 c (List.mem_cons_of_mem _ hc)) ?_
          exact .char (st' := avsk h) he (by cases h <;> rfl) (.ascii he (c := 61) (by decide) (by decide)) (by cases h <;> decide +kernel) hval

theorem After.attrs (he : PageOk e) (ha : After e output h cs l) : ∀ {xs : List Attr}, (∀ x ∈ xs, x.Ok e) →
    After e output h (xs.flatMap Attr.spell ++ cs) (xs.flatMap (Attr.items h) ++ l) := by
  intro xs
  induction xs with
  | nil => exact fun _ => ha
  | cons x xs ih =>
    intro hx
    have := (ih fun y hy => hx y (List.mem_cons_of_mem _ hy)).attr he (hx x (List.mem_cons_self ..))
    simpa using this

/-- The end of a tag or a header: white space and a character. -/
theorem After.tail (he : PageOk e) {c : UChar} (h1 : 1 ≤ c) (h2 : c < 128) (hw : Kind.word.ends c = true)
    (hn : (stm (avqe h)).next (controlCharMap c) = some st') (hn' : (stm (aisk h)).next (controlCharMap c) = some st')
    (hg : Gives e output st' cs l) {tail : List UChar} (ht : Gaps tail) : After e output h (tail ++ c :: cs) l := by
  obtain ⟨-, t2, -, -, t5, -⟩ := attr_table h
  cases tail with
  | nil => exact ⟨c, cs, st', .ascii he h1 h2, hw, hn, hg⟩
  | cons b tail =>
    have hb := ht b (List.mem_cons_self ..)
    have tb := t5 ⟨b, by have := hb.2.1; omega⟩ hb.1 hb.2.2
    refine ⟨b, _, aisk h, Gap.hd he hb, tb.1, tb.2.1, .gaps he t2 (fun c hc => ht c (List.mem_cons_of_mem _ hc)) ?_⟩
    exact .char he (by cases h <;> rfl) (.ascii he h1 h2) hn' hg

end Mach

end TW
