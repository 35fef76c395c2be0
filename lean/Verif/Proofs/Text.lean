import Verif.Proofs.Tokens
import Verif.Proofs.Reach
import Verif.Proofs.Chunks
import Verif.Proofs.MachineTerm

/-!
# The items with text are tokens of the document
-/

namespace TW

open Spec

namespace Mach

variable {e : Enc} {f : Nat → Byte} {mask : Nat}

/-- The state reads tokens of type `arg`. -/
def TokState? (st : STMState) (isTok : Cc → Bool) (arg : ElementType) : Prop :=
  ∃ op, (stm st).action = some (op, arg) ∧ tokenDefs op = some isTok

theorem Reads.tok {st : STMState} {isTok : Cc → Bool} {arg : ElementType} (h : Reads mask st isTok arg) :
    TokState? st isTok arg := by
  obtain ⟨op, h1, h2, -⟩ := h
  exact ⟨op, h1, h2⟩

/-- Between two calls the token reader is idle in the states that read tokens. -/
def Idle (A : Cfg) : Prop := ∀ isTok arg, TokState? A.state isTok arg → A.tok.id = .Start

theorem trans_ret {A B : Cfg} {sd : Elem} {rt : ElementType} {r : Option ElementType}
    (h : Mach.trans e f sd rt A = (r, B)) :
    B.tok.id = .Start ∧ B.out = A.out ∧ B.tokenpos = A.tokenpos ∧ (r = some .ErrorOccurred ∨ r = Scanner.loopEnd rt) := by
  unfold Mach.trans at h
  simp only at h
  repeat' split at h
  all_goals
    simp only [Prod.mk.injEq] at h
    obtain ⟨rfl, rfl⟩ := h
    first
      | exact ⟨rfl, rfl, rfl, .inl rfl⟩
      | exact ⟨rfl, rfl, rfl, .inr rfl⟩

theorem tokStep_start {A B : Cfg} {isTok : Cc → Bool} {r : ElementType}
    (hs : tokStep e f isTok A = (some r, B)) : B.tok.id = .Start := by
  unfold tokStep at hs
  simp only at hs
  repeat' split at hs
  all_goals first
    | (simp only [Prod.mk.injEq, reduceCtorEq, false_and] at hs; done)
    | (simp only [Prod.mk.injEq, Option.some.injEq] at hs
       obtain ⟨rfl, rfl⟩ := hs
       rfl)

/-- When a call returns the token reader is idle. -/
theorem step_idle {A B : Cfg} {r : ElementType} (h : step e f mask A = (some r, B)) : Idle B := by
  intro isTok' arg' ⟨op', ha', ht'⟩
  unfold step at h
  simp only at h
  split at h
  · exact (trans_ret h).1
  · rename_i op arg ha
    split at h
    · split at h
      · exact (trans_ret h).1
      · split at h
        · exact tokStep_start h
        · split at h
          · cases h
          · exact (trans_ret h).1
    · rename_i htd
      have hno : B.state = A.state → False := by
        intro hs
        rw [hs, ha] at ha'
        cases ha'
        rw [htd] at ht'
        cases ht'
      split at h
      · unfold keyStep at h
        simp only at h
        split at h
        · exact (trans_ret h).1
        · split at h
          · cases h
          · split at h
            · cases h
            · cases h; exact (hno rfl).elim
      · split at h
        · rename_i hn
          split at h
          · rename_i hfb
            cases h
            rw [show ({ A with tokenpos := A.src, out := [], state := _ } : Cfg).state = _ from rfl,
              return_fallback _ (STMState.mem_all _) _ hn hfb] at ha'
            cases ha'
          · cases h; exact (hno rfl).elim
        · exact (trans_ret h).1

theorem Idle.clr {A : Cfg} (h : Idle A) (c : Bool) : Idle (clr c A) := by
  unfold Mach.clr
  split <;> exact h

theorem Fin.idle {A B : Cfg} {m : Nat} {r : ElementType} (h : Fin e f mask m A r B) : Idle B := by
  obtain ⟨A1, -, h2⟩ := h
  exact step_idle h2

theorem Idle.new (output : Enc) (em : Option (List (Nat × UChar))) (addr : Nat) : Idle (Cfg.new output em addr) :=
  fun _ _ _ => rfl

/-- The types with text are the types of tokens. -/
theorem kinds_tok : ∀ s ∈ STMState.all, ∀ op arg, (stm s).action = some (op, arg) → kindsOf arg ≠ [] →
    tokenDefs op ≠ none := by
  intro s _ op arg h hk
  cases s <;> simp only [stm, Option.some.injEq, Prod.mk.injEq, reduceCtorEq] at h
  all_goals
    obtain ⟨rfl, rfl⟩ := h
    first
      | exact absurd rfl hk
      | simp [tokenDefs]

/-- A step that returns a type with text ends a token. -/
theorem step_token {A B : Cfg} {r : ElementType} (hi : Inv mask A) (h : step e f mask A = (some r, B))
    (hk : kindsOf r ≠ []) (hm : mask.testBit r.toNat = true) :
    ∃ isTok, Reads mask A.state isTok r ∧ A.tok.id = .ParsingDone ∧ B.out = A.out ∧ B.tokenpos = A.tokenpos := by
  have hne : r ≠ .ErrorOccurred := by rintro rfl; exact hk rfl
  have hnn : r ≠ .None := by rintro rfl; exact hk rfl
  have hnh : r ≠ .HeaderStart := by rintro rfl; exact hk rfl
  have tr : ∀ {C : Cfg} {sd : Elem} {rt : ElementType}, Mach.trans e f sd rt C = (some r, B) →
      r = rt ∧ B.out = C.out ∧ B.tokenpos = C.tokenpos := by
    intro C sd rt h
    obtain ⟨-, h1, h2, h3 | h3⟩ := trans_ret h
    · simp only [Option.some.injEq] at h3; exact absurd h3 hne
    · unfold Scanner.loopEnd at h3
      split at h3
      · cases h3
      · simp only [Option.some.injEq] at h3; exact ⟨h3, h1, h2⟩
  unfold step at h
  simp only at h
  split at h
  · exact absurd (tr h).1 hnn
  · rename_i op arg ha
    split at h
    · rename_i isTok htd
      split at h
      · rename_i hid
        obtain ⟨rfl, h2, h3⟩ := tr h
        exact ⟨isTok, ⟨op, ha, htd, hm⟩, hid, h2, h3⟩
      · split at h
        · exact absurd (tokStep_err hi.buf h).2 hne
        · rename_i hmm
          split at h
          · cases h
          · obtain ⟨rfl, -⟩ := tr h
            exact absurd hm hmm
    · rename_i htd
      have hx : r ≠ arg := by
        rintro rfl
        exact kinds_tok _ (STMState.mem_all _) _ _ ha hk htd
      split at h
      · unfold keyStep at h
        simp only at h
        split at h
        · have := (tr h).1
          split at this
          · exact absurd this hnh
          · exact absurd this hnn
        · split at h
          · cases h
          · split at h
            · cases h
            · cases h; exact absurd rfl hne
      · split at h
        · cases h; exact absurd rfl hx
        · exact absurd (tr h).1 hx

/-- The token that is being read in `A` was started in a configuration after `A0`. -/
def Since (e : Enc) (f : Nat → Byte) (mask : Nat) (A0 A : Cfg) : Prop :=
  (∃ isTok arg, Reads mask A.state isTok arg) → A.tok.id ≠ .Start →
    ∃ i j C, Steps e f mask i A0 C ∧ Steps e f mask j C A ∧ C.state = A.state ∧ C.tok.id = .Start ∧ C.src = A.tokenpos

theorem tokStep_pos {A B : Cfg} {isTok : Cc → Bool} (h : tokStep e f isTok A = (none, B)) :
    B.tokenpos = if A.tok.id = .Start then A.src else A.tokenpos := by
  unfold tokStep at h
  cases hid : A.tok.id <;> simp only [hid] at h <;> repeat' split at h
  all_goals first
    | cases h; done
    | (cases h; rfl)
    | (cases h; obtain ⟨o, b, ho⟩ := charStep_eq (e := e) (f := f) A; rw [ho]; rfl)

theorem step_since {A0 A B : Cfg} {i : Nat} (h0 : Steps e f mask i A0 A) (hA : Since e f mask A0 A)
    (h : step e f mask A = (none, B)) : Since e f mask A0 B := by
  intro ⟨isTok', arg', op', ha', ht', hm'⟩ hid
  have hstep := h
  unfold step at h
  simp only at h
  split at h
  · exact absurd (trans_ret h).1 hid
  · rename_i op arg ha
    split at h
    · rename_i isTok htd
      split at h
      · exact absurd (trans_ret h).1 hid
      · split at h
        · rename_i hm
          have h1 := (tokStep_shape h).1
          have h2 := tokStep_pos h
          by_cases hs : A.tok.id = .Start
          · rw [if_pos hs] at h2
            exact ⟨i, 1, A, h0, .one hstep, h1.symm, hs, h2.symm⟩
          · rw [if_neg hs] at h2
            obtain ⟨i', j, C, c1, c2, c3, c4, c5⟩ := hA ⟨isTok, arg, op, ha, htd, hm⟩ hs
            exact ⟨i', j + 1, C, c1, c2.snoc hstep, by rw [c3, h1], c4, by rw [c5, h2]⟩
        · rename_i hm
          split at h
          · cases h
            rw [show (adv e f A).state = A.state from rfl, ha] at ha'
            cases ha'
            exact absurd hm' hm
          · exact absurd (trans_ret h).1 hid
    · rename_i htd
      have hno : B.state = A.state → False := by
        intro hs
        rw [hs, ha] at ha'
        cases ha'
        rw [htd] at ht'
        cases ht'
      split at h
      · unfold keyStep at h
        simp only at h
        split at h
        · exact absurd (trans_ret h).1 hid
        · split at h
          · cases h
            split at hno <;> exact (hno rfl).elim
          · split at h
            · cases h; exact (hno rfl).elim
            · cases h
      · split at h
        · cases h
        · exact absurd (trans_ret h).1 hid

theorem steps_since {A0 A : Cfg} {m : Nat} (h : Steps e f mask m A0 A) (h0 : Idle A0) : Since e f mask A0 A := by
  have key : ∀ {B C : Cfg} {n i : Nat}, Steps e f mask n B C → Steps e f mask i A0 B → Since e f mask A0 B →
      Since e f mask A0 C := by
    intro B C n i h
    induction h generalizing i with
    | refl => exact fun _ h => h
    | cons h1 _ ih => exact fun h2 h3 => ih (h2.snoc h1) (step_since h2 h3 h1)
  refine key h (.refl A0) ?_
  intro ⟨isTok, arg, hr⟩ hid
  exact absurd (h0 _ _ hr.tok) hid

/-- A call that returns a type with text has started a token. -/
theorem fin_token {A0 B : Cfg} {m : Nat} {r : ElementType} (hi : Inv mask A0) (h0 : Idle A0)
    (h : Fin e f mask m A0 r B) (hk : kindsOf r ≠ []) (hm : mask.testBit r.toNat = true) :
    ∃ i C n isTok, Steps e f mask i A0 C ∧ Fin e f mask n C r B ∧ Reads mask C.state isTok r ∧ C.tok.id = .Start ∧
      C.src = B.tokenpos := by
  obtain ⟨A1, h1, h2⟩ := h
  obtain ⟨isTok, g1, g2, -, g4⟩ := step_token (steps_inv h1 hi) h2 hk hm
  obtain ⟨i, j, C, c1, c2, c3, c4, c5⟩ := steps_since h1 h0 ⟨_, _, g1⟩ (by rw [g2]; simp)
  exact ⟨i, C, j, isTok, c1, ⟨A1, c2, h2⟩, by rw [c3]; exact g1, c4, by rw [c5, g4]⟩

/-! ## The kinds of tokens -/

/-- The kind of the token read with an action. -/
def kindOf : STMAction → Option Kind
  | .ReturnContent => some .content
  | .ReturnIdentifier => some .word
  | .ReturnSQString => some .sq
  | .ReturnDQString => some .dq
  | _ => none

theorem kind_of_reads : ∀ s ∈ STMState.all, ∀ op arg, (stm s).action = some (op, arg) → tokenDefs op ≠ none →
    ∃ k ∈ kindsOf arg, kindOf op = some k := by
  intro s _ op arg h ht
  cases s <;> simp only [stm, Option.some.injEq, Prod.mk.injEq, reduceCtorEq] at h
  all_goals
    obtain ⟨rfl, rfl⟩ := h
    first
      | exact ⟨_, by simp only [kindsOf, List.mem_cons, true_or, or_true], rfl⟩
      | exact absurd rfl ht

theorem kind_ends : ∀ op isTok k, tokenDefs op = some isTok → kindOf op = some k → ∀ a, a < 256 →
    (isTok (controlCharMap a) = (!(k.ends a) && decide (a ≠ 38))) := by
  intro op isTok k h1 h2 a ha
  cases op <;> simp only [tokenDefs, kindOf, Option.some.injEq, reduceCtorEq] at h1 h2 <;> subst h1 <;> subst h2
  · have : ∀ a : _root_.Fin 256, isContentC (controlCharMap a.1) = (!(Kind.content.ends a.1) && decide (a.1 ≠ 38)) := by
      decide +kernel
    exact this ⟨a, ha⟩
  · have : ∀ a : _root_.Fin 256, isTagC (controlCharMap a.1) = (!(Kind.word.ends a.1) && decide (a.1 ≠ 38)) := by
      decide +kernel
    exact this ⟨a, ha⟩
  · have : ∀ a : _root_.Fin 256, isSqC (controlCharMap a.1) = (!(Kind.sq.ends a.1) && decide (a.1 ≠ 38)) := by
      decide +kernel
    exact this ⟨a, ha⟩
  · have : ∀ a : _root_.Fin 256, isDqC (controlCharMap a.1) = (!(Kind.dq.ends a.1) && decide (a.1 ≠ 38)) := by
      decide +kernel
    exact this ⟨a, ha⟩

theorem ends_amp (k : Kind) : k.ends 38 = false := by cases k <;> rfl

theorem step_end {A : Cfg} {isTok : Cc → Bool} {arg : ElementType} (h : Reads mask A.state isTok arg)
    (hid : A.tok.id = .ParsingDone) : step e f mask A = Mach.trans e f (stm A.state) arg A := by
  obtain ⟨op, h1, h2, -⟩ := h
  unfold step
  simp only [h1, h2, if_pos hid]

/-- The value of a token. -/
theorem token_value {C B : Cfg} {n : Nat} {r : ElementType} {op : STMAction} {kind : Kind} (hi : Inv mask C)
    (ha : (stm C.state).action = some (op, r)) (hm : mask.testBit r.toNat = true) (hkd : kindOf op = some kind)
    (hid : C.tok.id = .Start) (h : Fin e f mask n C r B) (hk : kindsOf r ≠ []) {l : Nat}
    (hus : ∀ c ∈ chars e f C.src l, kind.ends c.asc = false) (hend : kind.ends (uasc e f (offs e f C.src l)) = true)
    {ss : List Seg} (hss : ss.flatMap Seg.text = chars e f C.src l)
    (hok : SegsOk (userChar C) (uasc e f (offs e f C.src l)) ss) : B.out = value e C.output ss := by
  have htd : tokenDefs op ≠ none := kinds_tok _ (STMState.mem_all _) _ _ ha hk
  obtain ⟨isTok, ht⟩ := Option.ne_none_iff_exists'.1 htd
  have hke := kind_ends _ _ _ ht hkd
  have hr : Reads mask C.state isTok r := ⟨op, ha, ht, hm⟩
  have hamp : isTok .Amp = false := by
    have := hke 38 (by omega)
    rw [ends_amp, show controlCharMap 38 = .Amp by decide +kernel] at this
    simpa using this
  have hidle := hi.idle (by rw [hid]; rfl) (by rw [hid]; simp)
  have s1 : step e f mask C = (none, idTo .ParsingToken { C with tokenpos := C.src, out := [] }) := by
    rw [step_tok hr (by rw [hid]; simp)]
    unfold tokStep
    rw [hid]
  have ht1 : Tok (idTo .ParsingToken { C with tokenpos := C.src, out := [] }) false :=
    ⟨rfl, hidle.cr, hidle.pos, hidle.val, hidle.buf⟩
  have hsp : Span e f C.src (ss.flatMap Seg.text) (offs e f C.src l) := by rw [hss]; exact span_chars l _
  have halt : ∀ (c : Ch), c ∈ chars e f C.src l → c.asc < 256 := by
    clear hus hend hss hok hsp
    generalize C.src = k
    induction l generalizing k with
    | zero => intro c hc; cases hc
    | succ l ih =>
      intro c hc
      cases hc with
      | head => exact TW.uasc_lt e f k
      | tail _ hc => exact ih _ _ hc
  obtain ⟨cr, m, D, d1, d2, d3, d4, d5⟩ := segs_run (e := e) (f := f) (mask := mask) (out := C.output) hamp ss
    (A := idTo .ParsingToken { C with tokenpos := C.src, out := [] }) hr ht1 rfl hsp hok (by
      intro c hc
      rw [hss] at hc
      by_cases h38 : c.asc = 38
      · exact .inr h38
      · left
        rw [hke _ (halt c hc), hus c hc]
        simp [h38])
  have hD : Reads mask D.state isTok r := by rw [d2.state]; exact hr
  have hend' := hke _ (TW.uasc_lt e f (offs e f C.src l))
  have s2 : step e f mask D = (none, initTok .ParsingDone D) := by
    rw [step_tok hD (by rw [d5.id]; simp)]
    unfold tokStep
    rw [d5.id]
    simp only
    rw [if_neg, if_neg]
    · intro h
      unfold cls at h
      rw [d3] at h
      have : uasc e f (offs e f C.src l) = 38 := by
        have hx : ∀ a : _root_.Fin 256, controlCharMap a.1 = .Amp → a.1 = 38 := by decide +kernel
        exact hx ⟨_, TW.uasc_lt e f _⟩ h
      rw [this, ends_amp] at hend
      cases hend
    · unfold cls
      rw [d3, hend', hend]
      simp
  have hall := (Steps.cons s1 d1).snoc s2
  obtain ⟨-, E, f1, f2⟩ := h.split hall
  have s3 : ∃ x, step e f mask (initTok .ParsingDone D) = x ∧ Mach.trans e f (stm D.state) r (initTok .ParsingDone D) = x := by
    exact ⟨_, step_end (A := initTok .ParsingDone D) hD rfl, rfl⟩
  obtain ⟨⟨x, F⟩, s3, s4⟩ := s3
  obtain ⟨-, t2, -, t4⟩ := trans_ret s4
  have hx : ∃ y, x = some y := by
    rcases t4 with t4 | t4
    · exact ⟨_, t4⟩
    · refine ⟨r, ?_⟩
      rw [t4]
      unfold Scanner.loopEnd
      rw [if_neg]
      rintro rfl
      exact hk rfl
  obtain ⟨y, rfl⟩ := hx
  have : Fin e f mask 0 (initTok .ParsingDone D) y F := ⟨_, .refl _, s3⟩
  obtain ⟨-, -, rfl⟩ := this.det ⟨E, f1, f2⟩
  rw [t2]
  show D.out = _
  rw [d4, lines_eq]
  rfl

/-! ## What is before a token -/

/-- What is known of the text before a state is entered. -/
inductive Req where
  | any | prev (c : Cc) | after | notq
  deriving DecidableEq

def req : STMState → Req
  | .TAGAVDQ | .XTAGAVDQ | .ENTITYDQ => .prev .Dq
  | .TAGAVSQ | .XTAGAVSQ | .ENTITYSQ => .prev .Sq
  | .XTAGDONE | .ENTITYE => .prev .Gt
  | .CONTENT | .TOKEN | .DOCSTART | .SEEKTOK => .after
  | .TAGAVID | .XTAGAVID | .ENTITYID => .notq
  | _ => .any

/-- The class of the character before `p` is `c`. -/
def BeforeC (e : Enc) (f : Nat → Byte) (c : Cc) (p : Nat) : Prop :=
  ∃ q, q + ulen e f q = p ∧ controlCharMap (uasc e f q) = c

def AfterC (e : Enc) (f : Nat → Byte) (p : Nat) : Prop :=
  ∃ q j, BeforeC e f .Gt q ∧ offs e f q j = p ∧ ∀ i, i < j → controlCharMap (uasc e f (offs e f q i)) ∈ whites

def Req.holds (e : Enc) (f : Nat → Byte) (p : Nat) : Req → Prop
  | .any => True
  | .prev c => BeforeC e f c p
  | .after => AfterC e f p
  | .notq => controlCharMap (uasc e f p) ≠ .Sq ∧ controlCharMap (uasc e f p) ≠ .Dq

/-- A character of class `c` does not end the token of the state. -/
def inside (s : STMState) (c : Cc) : Bool :=
  match (stm s).action with
  | some (op, _) => match tokenDefs op with
    | some isTok => isTok c || c = .Amp
    | none => false
  | none => false

/-- The state reads no token. -/
def noTok (s : STMState) : Bool :=
  match (stm s).action with
  | some (op, _) => (tokenDefs op).isNone
  | none => true

/-- A transition over a character of class `c`. -/
def reqNext (s : STMState) (c : Cc) : Bool :=
  match (stm s).next c with
  | none => true
  | some ns => inside s c ||
    match req ns with
    | .any => true
    | .prev c' => c = c'
    | .after => c = .Gt || (noTok s && req s = .after && whites.contains c)
    | .notq => false

theorem req_next : ∀ s ∈ STMState.all, ∀ c, reqNext s c = true := by
  intro s _ c
  cases s <;> cases c <;> rfl

/-- The fallback on a character of class `c`. -/
def reqBack (s : STMState) (c : Cc) : Bool :=
  match (stm s).next c, (stm s).fallback with
  | none, some fb => inside s c ||
    match req fb with
    | .any => true
    | .prev _ => false
    | .after => noTok s && (req s = .after || req s = .prev .Gt)
    | .notq => !(c = .Sq || c = .Dq)
  | _, _ => true

theorem req_back : ∀ s ∈ STMState.all, ∀ c, reqBack s c = true := by
  intro s _ c
  cases s <;> cases c <;> rfl

/-- What is known of the text before the configuration. -/
def Known (e : Enc) (f : Nat → Byte) (A : Cfg) : Prop := (req A.state).holds e f A.src

theorem known_next {A B : Cfg} (hA : noTok A.state = true → Known e f A) (hx : inside A.state (cls e f A) = false)
    (hn : (stm A.state).next (cls e f A) = some B.state) (hs : B.src = A.src + ulen e f A.src) : Known e f B := by
  have h := req_next A.state (STMState.mem_all _) (cls e f A)
  unfold reqNext at h
  rw [hn] at h
  simp only [hx, Bool.false_or] at h
  unfold Known
  cases hr : req B.state with
  | any => trivial
  | prev c =>
    rw [hr] at h
    exact ⟨A.src, hs.symm, show cls e f A = c by simpa using h⟩
  | after =>
    rw [hr] at h
    simp only [Bool.or_eq_true, Bool.and_eq_true, decide_eq_true_eq] at h
    rcases h with h | ⟨⟨h1, h2⟩, h3⟩
    · exact ⟨B.src, 0, ⟨A.src, hs.symm, h⟩, rfl, fun i hi => absurd hi (Nat.not_lt_zero i)⟩
    · have := hA h1
      unfold Known at this
      rw [h2] at this
      obtain ⟨q, j, q1, q2, q3⟩ := this
      refine ⟨q, j + 1, q1, by rw [offs, q2, hs], fun i hi => ?_⟩
      by_cases hij : i = j
      · rw [hij, q2]
        show cls e f A ∈ whites
        simpa using h3
      · exact q3 i (by omega)
  | notq => rw [hr] at h; cases h

theorem known_back {A B : Cfg} (hA : noTok A.state = true → Known e f A) (hx : inside A.state (cls e f A) = false)
    (hn : (stm A.state).next (cls e f A) = none) (hf : (stm A.state).fallback = some B.state) (hs : B.src = A.src) :
    Known e f B := by
  have h := req_back A.state (STMState.mem_all _) (cls e f A)
  unfold reqBack at h
  rw [hn, hf] at h
  simp only [hx, Bool.false_or] at h
  unfold Known
  cases hr : req B.state with
  | any => trivial
  | prev c => rw [hr] at h; cases h
  | after =>
    rw [hr] at h
    simp only [Bool.or_eq_true, Bool.and_eq_true, decide_eq_true_eq] at h
    obtain ⟨h1, h2⟩ := h
    have hk := hA h1
    unfold Known at hk
    rw [hs]
    rcases h2 with h2 | h2
    · rw [h2] at hk; exact hk
    · rw [h2] at hk
      exact ⟨A.src, 0, hk, rfl, fun i hi => absurd hi (Nat.not_lt_zero i)⟩
  | notq =>
    rw [hr] at h
    simp only [Bool.not_eq_true', Bool.or_eq_false_iff, decide_eq_false_iff_not] at h
    rw [hs]
    exact h

theorem known_trans {A B : Cfg} {rt : ElementType} {r : Option ElementType}
    (hA : noTok A.state = true → Known e f A) (hx : inside A.state (cls e f A) = false)
    (h : Mach.trans e f (stm A.state) rt A = (r, B)) (hr : r ≠ some .ErrorOccurred) : Known e f B := by
  unfold Mach.trans at h
  simp only at h
  split at h
  · rename_i h1
    simp only [Prod.mk.injEq] at h; obtain ⟨-, rfl⟩ := h
    exact known_next hA hx h1 rfl
  · rename_i h0
    split at h
    · rename_i h1
      simp only [Prod.mk.injEq] at h; obtain ⟨-, rfl⟩ := h
      exact known_back hA hx h0 h1 rfl
    · split at h <;> (simp only [Prod.mk.injEq] at h; exact absurd h.1.symm hr)

/-- The text before the configuration is known at the start of a token that is read, and in the states that
read no token. -/
def Fresh (e : Enc) (f : Nat → Byte) (mask : Nat) (A : Cfg) : Prop :=
  (∀ isTok arg, TokState? A.state isTok arg → A.tok.id = .Start ∧ mask.testBit arg.toNat = true) → Known e f A

theorem noTok_iff {s : STMState} : noTok s = true ↔ ∀ isTok arg, ¬ TokState? s isTok arg := by
  unfold noTok
  constructor
  · rintro h isTok arg ⟨op, h1, h2⟩
    rw [h1] at h
    simp [h2] at h
  · intro h
    split
    · rename_i op arg ha
      cases ht : tokenDefs op with
      | none => rfl
      | some isTok => exact absurd ⟨op, ha, ht⟩ (h isTok arg)
    · rfl

theorem step_fresh {A B : Cfg} {r : Option ElementType} (hA : Fresh e f mask A) (hd : DoneOk e f A)
    (h : step e f mask A = (r, B)) (hr : r ≠ some .ErrorOccurred) :
    Fresh e f mask B ∧ (r ≠ none → Known e f B) := by
  have all : Known e f B → Fresh e f mask B ∧ (r ≠ none → Known e f B) := fun h => ⟨fun _ => h, fun _ => h⟩
  have hno : noTok A.state = true → Known e f A := fun h =>
    hA fun isTok arg ht => absurd ht (noTok_iff.1 h isTok arg)
  unfold step at h
  simp only at h
  split at h
  · rename_i ha
    exact all (known_trans hno (by unfold inside; rw [ha]) h hr)
  · rename_i op arg ha
    split at h
    · rename_i isTok htd
      split at h
      · rename_i hid
        refine all (known_trans hno ?_ h hr)
        obtain ⟨h1, h2⟩ := hd hid op arg isTok ha htd
        unfold inside
        rw [ha]
        simp [htd, h1, h2]
      · rename_i hid
        split at h
        · rename_i hm
          have h1 := (tokStep_shape h).1
          cases r with
          | some r =>
            exfalso
            unfold tokStep at h
            simp only at h
            repeat' split at h
            all_goals
              simp only [Prod.mk.injEq, reduceCtorEq, false_and] at h
              try exact hr h.1.symm
          | none =>
            refine ⟨fun hx => ?_, fun h => absurd rfl h⟩
            obtain ⟨h2, -⟩ := hx isTok arg ⟨op, by rw [h1]; exact ha, htd⟩
            exfalso
            unfold tokStep at h
            cases hid' : A.tok.id <;> simp only [hid'] at h <;> repeat' split at h
            all_goals first
              | cases h; done
              | (cases h; simp [idTo, initTok, tokTo, fallback, adv, pushes, TokState.init, store, hid'] at h2; done)
              | (cases h; have := (charStep_tok (e := e) (f := f) A).2.2
                 simp only [adv] at h2; rw [this, hid'] at h2; cases h2)
        · rename_i hm
          split at h
          · cases h
            refine ⟨fun hx => ?_, fun h => absurd rfl h⟩
            exact absurd (hx isTok arg ⟨op, ha, htd⟩).2 hm
          · rename_i hc
            refine all (known_trans hno ?_ h hr)
            unfold inside
            rw [ha]
            simpa [htd] using hc
    · rename_i htd
      have hni : inside A.state (cls e f A) = false := by unfold inside; rw [ha]; simp [htd]
      have hnt : noTok A.state = true := by unfold noTok; rw [ha]; simp [htd]
      have same : B.state = A.state → (req A.state = .any) → Fresh e f mask B ∧ (r ≠ none → Known e f B) := by
        intro h1 h2
        apply all
        unfold Known
        rw [h1, h2]
        trivial
      split at h
      · rename_i str hstr
        have hany : req A.state = .any := by
          cases hs : A.state <;> rw [hs] at ha <;> simp only [stm, Option.some.injEq, Prod.mk.injEq, reduceCtorEq] at ha
          all_goals
            obtain ⟨rfl, rfl⟩ := ha
            first
              | rfl
              | cases hstr
        unfold keyStep at h
        simp only at h
        split at h
        · exact all (known_trans hno hni h hr)
        · split at h
          · cases h
            refine same ?_ hany
            split <;> rfl
          · split at h
            · cases h; exact same rfl hany
            · cases h; exact absurd rfl hr
      · split at h
        · rename_i hn
          split at h
          · rename_i hfb
            cases h
            have hnx : (stm A.state).next (cls e f A) = none := by
              cases hs : A.state <;> rw [hs] at hn hfb <;> simp only [stm, reduceCtorEq] at hn hfb <;> rfl
            exact all (known_back hno hni hnx hfb rfl)
          · cases h
            apply all
            exact hno hnt
        · exact all (known_trans (A := { A with tokenpos := A.src, out := [] }) hno hni h hr)

theorem Known.fresh {A : Cfg} (h : Known e f A) (mask : Nat) : Fresh e f mask A := fun _ => h

theorem steps_fresh {A B : Cfg} {m : Nat} (h : Steps e f mask m A B) (hA : Fresh e f mask A) (hd : DoneOk e f A) :
    Fresh e f mask B ∧ DoneOk e f B := by
  induction h with
  | refl => exact ⟨hA, hd⟩
  | cons h1 _ ih => exact ih (step_fresh hA hd h1 (by simp)).1 (step_done h1)

theorem cls_gt {a : Byte} (ha : a < 256) (h : controlCharMap a = .Gt) : a = 62 := by
  have hx : ∀ a : _root_.Fin 256, controlCharMap a.1 = .Gt → a.1 = 62 := by decide +kernel
  exact hx ⟨a, ha⟩ h

theorem cls_dq {a : Byte} (ha : a < 256) : controlCharMap a = .Dq ↔ a = 34 := by
  have hx : ∀ a : _root_.Fin 256, controlCharMap a.1 = .Dq ↔ a.1 = 34 := by decide +kernel
  exact hx ⟨a, ha⟩

theorem cls_sq {a : Byte} (ha : a < 256) : controlCharMap a = .Sq ↔ a = 39 := by
  have hx : ∀ a : _root_.Fin 256, controlCharMap a.1 = .Sq ↔ a.1 = 39 := by decide +kernel
  exact hx ⟨a, ha⟩

theorem cls_white {a : Byte} (ha : a < 256) (h : controlCharMap a ∈ whites) : White a := by
  have hx : ∀ a : _root_.Fin 256, controlCharMap a.1 ∈ whites → 1 ≤ a.1 ∧ a.1 ≤ 32 := by decide +kernel
  exact hx ⟨a, ha⟩ h

/-- The states that read the kinds of tokens. -/
theorem req_kind : ∀ s ∈ STMState.all, ∀ op r k, (stm s).action = some (op, r) → kindOf op = some k →
    match k with
    | .dq => req s = .prev .Dq
    | .sq => req s = .prev .Sq
    | .content => req s = .after
    | .word => r ∈ [.TagAttribValue, .HeaderAttribValue, .DocAttribValue] → req s = .notq := by
  intro s _ op r k h hk
  cases s <;> simp only [stm, Option.some.injEq, Prod.mk.injEq, reduceCtorEq] at h
  all_goals
    obtain ⟨rfl, rfl⟩ := h
    simp only [kindOf, Option.some.injEq, reduceCtorEq] at hk
    try subst hk
    try rfl
    try (intro h; simp at h; done)
    try (intro _; rfl)

theorem lead_of {C : Cfg} {op : STMAction} {r : ElementType} {kind : Kind} (h : Known e f C)
    (ha : (stm C.state).action = some (op, r)) (hk : kindOf op = some kind) : Lead e f r kind C.src := by
  have := req_kind _ (STMState.mem_all _) _ _ _ ha hk
  unfold Known at h
  cases kind with
  | dq =>
    simp only at this
    rw [this] at h
    obtain ⟨q, q1, q2⟩ := h
    exact ⟨q, q1, (cls_dq (TW.uasc_lt e f q)).1 q2⟩
  | sq =>
    simp only at this
    rw [this] at h
    obtain ⟨q, q1, q2⟩ := h
    exact ⟨q, q1, (cls_sq (TW.uasc_lt e f q)).1 q2⟩
  | content =>
    simp only at this
    rw [this] at h
    obtain ⟨q, j, ⟨p, p1, p2⟩, q2, q3⟩ := h
    exact ⟨q, j, ⟨p, p1, cls_gt (TW.uasc_lt e f p) p2⟩, q2, fun i hi => cls_white (TW.uasc_lt e f _) (q3 i hi)⟩
  | word =>
    intro hr
    simp only at this
    rw [this hr] at h
    exact ⟨fun h' => h.2 ((cls_dq (TW.uasc_lt e f _)).2 h'), fun h' => h.1 ((cls_sq (TW.uasc_lt e f _)).2 h')⟩

/-! ## The constant part of a scanner -/

/-- `B` has the same output encoding and entity map as `A`. -/
def Same (A B : Cfg) : Prop := B.output = A.output ∧ B.entityMap = A.entityMap ∧ B.bufAddr = A.bufAddr

theorem Same.trans {A B C : Cfg} (h : Same A B) (h' : Same B C) : Same A C :=
  ⟨h'.1.trans h.1, h'.2.1.trans h.2.1, h'.2.2.trans h.2.2⟩

theorem trans_same {A B : Cfg} {sd : Elem} {rt : ElementType} {r : Option ElementType}
    (h : Mach.trans e f sd rt A = (r, B)) : Same A B := by
  unfold Mach.trans at h
  simp only at h
  repeat' split at h
  all_goals
    simp only [Prod.mk.injEq] at h
    obtain ⟨rfl, rfl⟩ := h
    exact ⟨rfl, rfl, rfl⟩

theorem tokStep_same {A B : Cfg} {isTok : Cc → Bool} {r : Option ElementType}
    (h : tokStep e f isTok A = (r, B)) : Same A B := by
  unfold tokStep at h
  simp only at h
  repeat' split at h
  all_goals first
    | (simp only [Prod.mk.injEq] at h; obtain ⟨-, rfl⟩ := h; exact ⟨rfl, rfl, rfl⟩)
    | (simp only [Prod.mk.injEq] at h; obtain ⟨-, rfl⟩ := h
       obtain ⟨o, b, ho⟩ := charStep_eq (e := e) (f := f) A
       rw [ho]; exact ⟨rfl, rfl, rfl⟩)

theorem step_same {A B : Cfg} {r : Option ElementType} (h : step e f mask A = (r, B)) : Same A B := by
  unfold step at h
  simp only at h
  split at h
  · exact trans_same h
  · split at h
    · split at h
      · exact trans_same h
      · split at h
        · exact tokStep_same h
        · split at h
          · cases h; exact ⟨rfl, rfl, rfl⟩
          · exact trans_same h
    · split at h
      · unfold keyStep at h
        simp only at h
        split at h
        · exact trans_same h
        · split at h
          · cases h
            split <;> exact ⟨rfl, rfl, rfl⟩
          · split at h
            · cases h; exact ⟨rfl, rfl, rfl⟩
            · cases h; exact ⟨rfl, rfl, rfl⟩
      · split at h
        · split at h <;> cases h <;> exact ⟨rfl, rfl, rfl⟩
        · exact trans_same (A := { A with tokenpos := A.src, out := [] }) h

theorem steps_same {A B : Cfg} {m : Nat} (h : Steps e f mask m A B) : Same A B := by
  induction h with
  | refl => exact ⟨rfl, rfl, rfl⟩
  | cons h1 _ ih => exact (step_same h1).trans ih

theorem steps_aligned {A B : Cfg} {m k : Nat} (h : Steps e f mask m A B) (hk : ∃ j, A.src = offs e f k j) :
    ∃ j, B.src = offs e f k j := by
  induction h with
  | refl => exact hk
  | cons h1 _ ih => exact ih ((step_shape h1).aligned hk)

/-- The end of a token. -/
theorem exists_end {len : Nat} (hf : Ends f len) (kind : Kind) (p : Nat) :
    ∃ l, (∀ c ∈ chars e f p l, kind.ends c.asc = false) ∧ kind.ends (uasc e f (offs e f p l)) = true := by
  have key : ∀ (d p : Nat), len ≤ p + d →
      ∃ l, (∀ c ∈ chars e f p l, kind.ends c.asc = false) ∧ kind.ends (uasc e f (offs e f p l)) = true := by
    intro d
    induction d with
    | zero =>
      intro p hp
      refine ⟨0, (fun c hc => nomatch hc), ?_⟩
      rw [show offs e f p 0 = p from rfl, hf.uasc (by omega)]
      cases kind <;> rfl
    | succ d ih =>
      intro p hp
      by_cases hk : kind.ends (uasc e f p) = true
      · exact ⟨0, (fun c hc => nomatch hc), hk⟩
      · have hpos := ulen_pos e f p
        obtain ⟨l, h1, h2⟩ := ih (p + ulen e f p) (by omega)
        refine ⟨l + 1, ?_, ?_⟩
        · intro c hc
          cases hc with
          | head => exact Bool.eq_false_iff.2 hk
          | tail _ hc => exact h1 c hc
        · have : offs e f p (l + 1) = offs e f (p + ulen e f p) l := by
            clear h1 h2 ih
            induction l with
            | zero => rfl
            | succ l ih => rw [offs, ih]; rfl
          rw [this]
          exact h2
  exact key len p (by omega)

end Mach

end TW
