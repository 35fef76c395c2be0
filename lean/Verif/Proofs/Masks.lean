import Verif.Proofs.Segs

/-!
# Masks do not change the structure

A token that is read and one that is skipped end at the same character.
-/

namespace TW

open Spec

namespace Mach

variable {e : Enc} {f : Nat → Byte} {mask : Nat}

/-- What is needed to read a token that starts in `C`. -/
structure AtToken (e : Enc) (f : Nat → Byte) (C : Cfg) (op : STMAction) (arg : ElementType) (isTok : Cc → Bool)
    (kind : Kind) (l : Nat) : Prop where
  act : (stm C.state).action = some (op, arg)
  tok : tokenDefs op = some isTok
  knd : kindOf op = some kind
  idle : Inv0 C
  id : C.tok.id = .Start
  inner : ∀ c ∈ chars e f C.src l, kind.ends c.asc = false
  stop : kind.ends (uasc e f (offs e f C.src l)) = true

variable {C : Cfg} {op : STMAction} {arg : ElementType} {isTok : Cc → Bool} {kind : Kind} {l : Nat}

theorem AtToken.amp (h : AtToken e f C op arg isTok kind l) : isTok .Amp = false := by
  have := kind_ends _ _ _ h.tok h.knd 38 (by omega)
  rw [ends_amp, show controlCharMap 38 = .Amp by decide +kernel] at this
  simpa using this

theorem AtToken.chars (h : AtToken e f C op arg isTok kind l) :
    ∀ c ∈ chars e f C.src l, isTok (controlCharMap c.asc) = true ∨ c.asc = 38 := by
  intro c hc
  by_cases h38 : c.asc = 38
  · exact .inr h38
  · left
    rw [kind_ends _ _ _ h.tok h.knd _ (chars_lt _ _ c hc), h.inner c hc]
    simp [h38]

theorem AtToken.ended (h : AtToken e f C op arg isTok kind l) :
    isTok (controlCharMap (uasc e f (offs e f C.src l))) = false ∧ controlCharMap (uasc e f (offs e f C.src l)) ≠ .Amp := by
  have hlt := TW.uasc_lt e f (offs e f C.src l)
  constructor
  · rw [kind_ends _ _ _ h.tok h.knd _ hlt, h.stop]
    rfl
  · intro ha
    have hx : ∀ a : _root_.Fin 256, controlCharMap a.1 = .Amp → a.1 = 38 := by decide +kernel
    have hs := h.stop
    rw [show uasc e f (offs e f C.src l) = 38 from hx ⟨_, hlt⟩ ha, ends_amp] at hs
    cases hs

/-- The start of a token. -/
theorem AtToken.begin (h : AtToken e f C op arg isTok kind l) (hm : mask.testBit arg.toNat = true) :
    step e f mask C = (none, idTo .ParsingToken { C with tokenpos := C.src, out := [] }) ∧
    Tok (idTo .ParsingToken { C with tokenpos := C.src, out := [] }) false := by
  constructor
  · rw [step_tok ⟨op, h.act, h.tok, hm⟩ (by rw [h.id]; simp)]
    unfold tokStep
    rw [h.id]
  · exact ⟨rfl, h.idle.cr, h.idle.pos, h.idle.val, h.idle.buf⟩

/-- A token that is read to its end. -/
theorem AtToken.read (h : AtToken e f C op arg isTok kind l) (hm : mask.testBit arg.toNat = true)
    {ss : List Seg} (hss : ss.flatMap Seg.text = Spec.chars e f C.src l)
    (hok : SegsOk (userChar C) (uasc e f (offs e f C.src l)) ss) :
    ∃ m D, Steps e f mask m C D ∧ Like { C with tokenpos := C.src } D ∧ D.src = offs e f C.src l ∧
      step e f mask D = Mach.trans e f (stm C.state) arg D ∧ D.tok.id = .ParsingDone ∧ D.out = value e C.output ss := by
  have hr : Reads mask C.state isTok arg := ⟨op, h.act, h.tok, hm⟩
  obtain ⟨s1, ht1⟩ := h.begin hm
  have hsp : Span e f C.src (ss.flatMap Seg.text) (offs e f C.src l) := by rw [hss]; exact span_chars l _
  obtain ⟨cr, m, D, d1, d2, d3, d4, d5⟩ := segs_run (e := e) (f := f) (mask := mask) (out := C.output) h.amp ss
    (A := idTo .ParsingToken { C with tokenpos := C.src, out := [] }) hr ht1 rfl hsp hok (by rw [hss]; exact h.chars)
  have hD : Reads mask D.state isTok arg := by rw [d2.state]; exact hr
  obtain ⟨e1, e2⟩ := h.ended
  have s2 : step e f mask D = (none, initTok .ParsingDone D) := by
    rw [step_tok hD (by rw [d5.id]; simp)]
    unfold tokStep
    rw [d5.id]
    simp only
    rw [if_neg, if_neg]
    · unfold cls; rw [d3]; exact e2
    · unfold cls; rw [d3, e1]; simp
  refine ⟨_, _, (Steps.cons s1 d1).snoc s2, ⟨d2.state, d2.error, d2.tokenpos, d2.output, d2.map, d2.addr⟩, d3, ?_, rfl, ?_⟩
  · have := step_end (e := e) (f := f) (A := initTok .ParsingDone D) hD rfl
    rw [this]
    rw [show (initTok .ParsingDone D).state = C.state from d2.state]
  · show D.out = _
    rw [d4, lines_eq]
    rfl

/-- A token with a name that is not defined. -/
theorem AtToken.undef (h : AtToken e f C op arg isTok kind l) (hm : mask.testBit arg.toNat = true)
    {ss : List Seg} {vs : List Ch} (h1 : Spec.chars e f C.src l = ss.flatMap Seg.text ++ vs)
    (h2 : SegsOk (userChar C) 38 ss) (h3 : Undefined (userChar C) vs) :
    ∃ m B, Fin e f mask m C .ErrorOccurred B ∧ B.error = .ErrUndefinedCharacterEntity := by
  have hr : Reads mask C.state isTok arg := ⟨op, h.act, h.tok, hm⟩
  obtain ⟨s1, ht1⟩ := h.begin hm
  have hsp : Span e f C.src (ss.flatMap Seg.text ++ vs) (offs e f C.src l) := by rw [← h1]; exact span_chars l _
  obtain ⟨k1, p1, p2⟩ := hsp.split
  have h38 : uasc e f k1 = 38 := by
    obtain ⟨-, ns, post, e1, -⟩ := h3
    cases vs with
    | nil => cases e1
    | cons v vs =>
      simp only [List.map_cons, List.cons_append, List.cons.injEq] at e1
      rw [← e1.1, p2.1]
      rfl
  obtain ⟨cr, m, D, d1, d2, d3, d4, d5⟩ := segs_run (e := e) (f := f) (mask := mask) (out := C.output) h.amp ss
    (A := idTo .ParsingToken { C with tokenpos := C.src, out := [] }) hr ht1 rfl p1 (by rw [h38]; exact h2)
    (fun c hc => h.chars c (by rw [h1]; exact List.mem_append_left _ hc))
  obtain ⟨m', F, f1, f2⟩ := undef_run (k := offs e f C.src l) (by rw [d2.state]; exact hr) d5 h.amp
    (by rw [d3]; exact p2) (by rw [d2.user]; exact h3)
  exact ⟨_, F, Fin.later (Steps.cons s1 d1) f1, f2⟩

/-- A token that is skipped. -/
theorem AtToken.skip (h : AtToken e f C op arg isTok kind l) (hm : mask.testBit arg.toNat = false) :
    Steps e f mask l C { C with src := offs e f C.src l } ∧
    step e f mask { C with src := offs e f C.src l } =
      Mach.trans e f (stm C.state) arg { C with src := offs e f C.src l } := by
  have st : ∀ k, step e f mask { C with src := k } =
      if isTok (controlCharMap (uasc e f k)) || decide (controlCharMap (uasc e f k) = .Amp) then
        (none, { C with src := k + ulen e f k })
      else Mach.trans e f (stm C.state) arg { C with src := k } := by
    intro k
    unfold step
    simp only [h.act, h.tok]
    rw [if_neg (by rw [h.id]; simp), hm]
    rfl
  constructor
  · have key : ∀ (l k : Nat), (∀ c ∈ Spec.chars e f k l, isTok (controlCharMap c.asc) = true ∨ c.asc = 38) →
        Steps e f mask l { C with src := k } { C with src := offs e f k l } := by
      intro l
      induction l with
      | zero => intro k _; exact .refl _
      | succ l ih =>
        intro k hc
        rw [offs_succ]
        refine .cons ?_ (ih _ fun c h => hc c (List.mem_cons_of_mem _ h))
        rw [st, if_pos]
        rcases hc _ (List.mem_cons_self ..) with h1 | h1
        · rw [show controlCharMap (uasc e f k) = controlCharMap (chAt e f k).asc from rfl, h1]; rfl
        · rw [show uasc e f k = 38 from h1]
          simp [show controlCharMap 38 = .Amp by decide +kernel]
    exact key l C.src h.chars
  · rw [st, if_neg]
    obtain ⟨e1, e2⟩ := h.ended
    rw [e1]
    simpa using e2

/-- The configurations agree in all that does not depend on what is delivered. -/
structure Bare (A B : Cfg) : Prop where
  state : B.state = A.state
  src : B.src = A.src
  error : B.error = A.error
  id : B.tok.id = A.tok.id
  pos : B.tok.pos = A.tok.pos
  user : userChar B = userChar A

theorem Bare.refl (A : Cfg) : Bare A A := ⟨rfl, rfl, rfl, rfl, rfl, rfl⟩

theorem Bare.cls {A B : Cfg} (h : Bare A B) : cls e f B = cls e f A := by unfold Mach.cls; rw [h.src]
theorem Bare.asc {A B : Cfg} (h : Bare A B) : asc e f B = asc e f A := by unfold Mach.asc; rw [h.src]

theorem Bare.clr {A B : Cfg} (h : Bare A B) (c : Bool) : Bare (clr c A) (clr c B) := by
  unfold Mach.clr
  split
  · exact ⟨h.state, h.src, rfl, h.id, h.pos, h.user⟩
  · exact h

theorem trans_core {A B A' : Cfg} {sd : Elem} {rt : ElementType} {x : Option ElementType} (hst : B.state = A.state)
    (hsrc : B.src = A.src) (her : B.error = A.error) (hpos : B.tok.pos = A.tok.pos) (hus : userChar B = userChar A)
    (ha : Mach.trans e f sd rt A = (x, A')) : ∃ B', Mach.trans e f sd rt B = (x, B') ∧ Bare A' B' := by
  have hcls : Mach.cls e f B = Mach.cls e f A := by unfold Mach.cls; rw [hsrc]
  unfold Mach.trans at ha ⊢
  simp only at ha ⊢
  rw [hcls]
  split at ha
  · cases ha
    refine ⟨_, rfl, rfl, ?_, her, rfl, hpos, hus⟩
    show B.src + ulen e f B.src = A.src + ulen e f A.src
    rw [hsrc]
  · split at ha
    · cases ha
      exact ⟨_, rfl, rfl, hsrc, her, rfl, hpos, hus⟩
    · split at ha
      · cases ha
        exact ⟨_, rfl, hst, hsrc, rfl, rfl, hpos, hus⟩
      · cases ha
        exact ⟨_, rfl, hst, hsrc, rfl, rfl, hpos, hus⟩

theorem Bare.trans {A B A' : Cfg} {sd : Elem} {rt : ElementType} {x : Option ElementType} (h : Bare A B)
    (ha : Mach.trans e f sd rt A = (x, A')) : ∃ B', Mach.trans e f sd rt B = (x, B') ∧ Bare A' B' :=
  trans_core h.state h.src h.error h.pos h.user ha

/-- The other states do not look at the mask. -/
theorem Bare.step {A B A' : Cfg} {m1 m2 : Nat} {x : Option ElementType} (h : Bare A B)
    (hno : ∀ op arg, (stm A.state).action = some (op, arg) → tokenDefs op = none)
    (ha : step e f m1 A = (x, A')) : ∃ B', step e f m2 B = (x, B') ∧ Bare A' B' := by
  unfold Mach.step at ha ⊢
  simp only at ha ⊢
  rw [h.state]
  split at ha
  · exact h.trans ha
  · rename_i op arg hact
    simp only [hno _ _ hact] at ha ⊢
    split at ha
    · unfold keyStep at ha ⊢
      simp only at ha ⊢
      rw [h.id]
      split at ha
      · rename_i hid
        rw [if_pos hid]
        exact h.trans ha
      · rename_i hid
        rw [if_neg hid, h.pos]
        split at ha
        · cases ha
          refine ⟨_, rfl, ?_⟩
          split
          · exact ⟨h.state, h.src, h.error, rfl, rfl, h.user⟩
          · exact ⟨h.state, h.src, h.error, rfl, rfl, h.user⟩
        · rw [h.asc, h.cls]
          split at ha
          · rename_i hc
            rw [if_pos hc]
            cases ha
            refine ⟨_, rfl, h.state, ?_, h.error, rfl, ?_, h.user⟩
            · show B.src + ulen e f B.src = A.src + ulen e f A.src
              rw [h.src]
            · show B.tok.pos + 1 = A.tok.pos + 1
              rw [h.pos]
          · rename_i hc
            rw [if_neg hc]
            cases ha
            exact ⟨_, rfl, h.state, h.src, rfl, rfl, rfl, h.user⟩
    · split at ha
      · rename_i hn
        rw [if_pos hn]
        split at ha
        · cases ha
          exact ⟨_, rfl, rfl, h.src, h.error, h.id, h.pos, h.user⟩
        · cases ha
          exact ⟨_, rfl, rfl, h.src, h.error, h.id, h.pos, h.user⟩
      · rename_i hn
        rw [if_neg hn]
        exact Bare.trans (A := { A with tokenpos := A.src, out := [] }) (B := { B with state := A.state, tokenpos := B.src, out := [] })
          ⟨rfl, h.src, h.error, h.id, h.pos, h.user⟩ ha

/-- A state that reads a token is entered with the token reader idle. -/
theorem step_enter {A B : Cfg} {x : Option ElementType} (h : Mach.step e f mask A = (x, B))
    (hno : ∀ op arg, (stm A.state).action = some (op, arg) → tokenDefs op = none) : Idle B := by
  cases x with
  | some r => exact step_idle h
  | none =>
    intro isTok' arg' ⟨op', ha', ht'⟩
    unfold Mach.step at h
    simp only at h
    split at h
    · exact (trans_ret h).1
    · rename_i op arg ha
      have hs : B.state = A.state → False := by
        intro hs
        rw [hs, ha] at ha'
        cases ha'
        rw [hno _ _ ha] at ht'
        cases ht'
      simp only [hno _ _ ha] at h
      split at h
      · unfold keyStep at h
        simp only at h
        split at h
        · exact (trans_ret h).1
        · split at h
          · cases h
            split at hs <;> exact (hs rfl).elim
          · split at h
            · cases h; exact (hs rfl).elim
            · cases h
      · split at h
        · cases h
        · exact (trans_ret h).1

theorem trans_some {A B : Cfg} {sd : Elem} {rt : ElementType} {x : Option ElementType} (hrt : rt ≠ .None)
    (h : Mach.trans e f sd rt A = (x, B)) : ∃ r, x = some r := by
  obtain ⟨-, -, -, h | h⟩ := trans_ret h
  · exact ⟨_, h⟩
  · refine ⟨rt, ?_⟩
    rw [h]
    unfold Scanner.loopEnd
    rw [if_neg hrt]

/-- A token, read or skipped. -/
theorem AtToken.pass (h : AtToken e f C op arg isTok kind l) (hss : mask.testBit arg.toNat = true → ∃ ss : List Seg,
      ss.flatMap Seg.text = Spec.chars e f C.src l ∧ SegsOk (userChar C) (uasc e f (offs e f C.src l)) ss) :
    ∃ m D, Steps e f mask m C D ∧ D.state = C.state ∧ D.error = C.error ∧ userChar D = userChar C ∧ D.tok.pos = 0 ∧
      D.src = offs e f C.src l ∧ Mach.step e f mask D = Mach.trans e f (stm C.state) arg D := by
  cases hm : mask.testBit arg.toNat with
  | true =>
    obtain ⟨ss, s1, s2⟩ := hss hm
    obtain ⟨m, D, d1, d2, d3, d4, d5, -⟩ := h.read hm s1 s2
    have := (steps_inv d1 (h.idle.inv mask)).idle (by rw [d5]; rfl) (by rw [d5]; simp)
    exact ⟨m, D, d1, d2.state, d2.error, d2.user, this.pos, d3, d4⟩
  | false =>
    obtain ⟨s1, s2⟩ := h.skip hm
    exact ⟨l, _, s1, rfl, rfl, rfl, h.idle.pos, rfl, s2⟩

theorem AtToken.core (h : AtToken e f C op arg isTok kind l) {B : Cfg} (hc : Bare C B) (hi : Inv0 B) :
    AtToken e f B op arg isTok kind l :=
  ⟨by rw [hc.state]; exact h.act, h.tok, h.knd, hi, by rw [hc.id]; exact h.id, by rw [hc.src]; exact h.inner,
    by rw [hc.src]; exact h.stop⟩

/-- The call fails with an undefined entity. -/
def UndefErr (r : ElementType) (A : Cfg) : Prop := r = .ErrorOccurred ∧ A.error = .ErrUndefinedCharacterEntity

/-- Two calls with different masks. -/
theorem mask_fin {len : Nat} (hf : Ends f len) {m1 m2 : Nat} : ∀ (n : Nat) {A B A' : Cfg} {r : ElementType},
    Fin e f m1 n A r A' → Bare A B → Inv m1 A → Inv m2 B → Idle A → ¬ UndefErr r A' →
    (∃ n2 B', Fin e f m2 n2 B r B' ∧ Bare A' B') ∨
    ∃ n2 B' arg, Fin e f m2 n2 B .ErrorOccurred B' ∧ B'.error = .ErrUndefinedCharacterEntity ∧
      m2.testBit arg = true ∧ m1.testBit arg = false := by
  intro n
  induction n using Nat.strongRecOn with
  | _ n ih =>
    intro A B A' r h hc hiA hiB hid hun
    by_cases htok : ∃ op arg, (stm A.state).action = some (op, arg) ∧ tokenDefs op ≠ none
    · clear ih
      obtain ⟨op, arg, ha, ht⟩ := htok
      obtain ⟨isTok, ht⟩ := Option.ne_none_iff_exists'.1 ht
      obtain ⟨kind, hk1, hk2⟩ := kind_of_reads _ (STMState.mem_all _) _ _ ha (by rw [ht]; simp)
      have hst := hid _ _ ⟨op, ha, ht⟩
      obtain ⟨l, l1, l2⟩ := exists_end (e := e) hf kind A.src
      have hA : AtToken e f A op arg isTok kind l :=
        ⟨ha, ht, hk2, hiA.idle (by rw [hst]; rfl) (by rw [hst]; simp), hst, l1, l2⟩
      have hB := hA.core hc (hiB.idle (by rw [hc.id, hst]; rfl) (by rw [hc.id, hst]; simp))
      have hne : arg ≠ .None := by rintro rfl; exact absurd hk1 (by simp [kindsOf])
      have both (sA : m1.testBit arg.toNat = true → ∃ ss : List Seg, ss.flatMap Seg.text = Spec.chars e f A.src l ∧
            SegsOk (userChar A) (uasc e f (offs e f A.src l)) ss)
          (sB : m2.testBit arg.toNat = true → ∃ ss : List Seg, ss.flatMap Seg.text = Spec.chars e f A.src l ∧
            SegsOk (userChar A) (uasc e f (offs e f A.src l)) ss) :
          ∃ n2 B', Fin e f m2 n2 B r B' ∧ Bare A' B' := by
        obtain ⟨i, D, d1, d2, d3, d4, d5, d6, d7⟩ := hA.pass sA
        obtain ⟨j, E, e1, e2, e3, e4, e5, e6, e7⟩ := hB.pass (mask := m2) (by rw [hc.src, hc.user]; exact sB)
        rcases hx : Mach.trans e f (stm A.state) arg D with ⟨x, D'⟩
        obtain ⟨E', e8, e9⟩ := trans_core (B := E) (by rw [e2, d2, hc.state]) (by rw [e6, d6, hc.src])
          (by rw [e3, d3, hc.error]) (by rw [e5, d5]) (by rw [e4, d4, hc.user]) hx
        obtain ⟨y, rfl⟩ := trans_some hne hx
        obtain ⟨-, rfl, rfl⟩ := h.det ⟨D, d1, by rw [d7, hx]⟩
        exact ⟨j, E', ⟨E, e1, by rw [e7, hc.state, e8]⟩, e9⟩
      obtain ⟨n1, n2⟩ := ends_next kind l2
      rcases exists_segs (userChar A) _ n1 n2 _ _ (Nat.le_refl _) with hss | ⟨ss, vs, s1, s2, s3⟩
      · exact .inl (both (fun _ => hss) (fun _ => hss))
      · cases hm1 : m1.testBit arg.toNat with
        | true =>
          obtain ⟨m, F, f1, f2⟩ := hA.undef hm1 s1 s2 s3
          obtain ⟨-, rfl, rfl⟩ := h.det f1
          exact absurd ⟨rfl, f2⟩ hun
        | false =>
          cases hm2 : m2.testBit arg.toNat with
          | true =>
            obtain ⟨m, F, f1, f2⟩ := hB.undef hm2 (by rw [hc.src]; exact s1) (by rw [hc.user]; exact s2)
              (by rw [hc.user]; exact s3)
            exact .inr ⟨m, F, arg.toNat, f1, f2, hm2, hm1⟩
          | false =>
            exact .inl (both (by rw [hm1]; nofun) (by rw [hm2]; nofun))
    · have hno : ∀ op arg, (stm A.state).action = some (op, arg) → tokenDefs op = none := by
        intro op arg ha
        cases ht : tokenDefs op with
        | none => rfl
        | some t => exact absurd ⟨op, arg, ha, by rw [ht]; simp⟩ htok
      obtain ⟨A1, h1, h2⟩ := h
      cases h1 with
      | refl =>
        obtain ⟨B', b1, b2⟩ := hc.step (m2 := m2) hno h2
        exact .inl ⟨0, B', ⟨B, .refl B, b1⟩, b2⟩
      | cons h3 h4 =>
        obtain ⟨B1, b1, b2⟩ := hc.step (m2 := m2) hno h3
        rcases ih _ (Nat.lt_succ_self _) ⟨A1, h4, h2⟩ b2 (step_inv hiA h3) (step_inv hiB b1) (step_enter h3 hno) hun with
          ⟨n2, B', g1, g2⟩ | ⟨n2, B', arg, g1, g2⟩
        · exact .inl ⟨_, B', Fin.later (.one b1) g1, g2⟩
        · exact .inr ⟨_, B', arg, Fin.later (.one b1) g1, g2⟩

/-! ## Sessions -/

/-- The configuration after calls. -/
def last : Cfg → List (Nat × Bool) → List (ElementType × Cfg) → Cfg
  | _, (_, c) :: cs, (_, B) :: os => last (clr c B) cs os
  | A, _, _ => A

/-- The calls with the first and with the second masks. -/
def fst (cs : List (Nat × Nat × Bool)) : List (Nat × Bool) := cs.map fun c => (c.1, c.2.2)
def snd (cs : List (Nat × Nat × Bool)) : List (Nat × Bool) := cs.map fun c => (c.2.1, c.2.2)

/-- With other masks the items are the same, up to an undefined entity in an item that was suppressed. -/
theorem mask_runs {len : Nat} (hf : Ends f len) {cs : List (Nat × Nat × Bool)} : ∀ {A B : Cfg}
    {os1 : List (ElementType × Cfg)}, Runs e f (fst cs) A os1 → Bare A B → Inv0 A → Inv0 B → Idle A →
    (∀ x ∈ os1, ¬ UndefErr x.1 x.2) →
    (∃ os2, Runs e f (snd cs) B os2 ∧ os2.map (·.1) = os1.map (·.1) ∧ os2.map (·.2.error) = os1.map (·.2.error) ∧
      Bare (last A (fst cs) os1) (last B (snd cs) os2)) ∨
    ∃ cs1 c cs2 os2 B', cs = cs1 ++ c :: cs2 ∧ Runs e f (snd (cs1 ++ [c])) B (os2 ++ [(.ErrorOccurred, B')]) ∧
      os2.map (·.1) = (os1.map (·.1)).take cs1.length ∧ os2.map (·.2.error) = (os1.map (·.2.error)).take cs1.length ∧
      B'.error = .ErrUndefinedCharacterEntity ∧ ∃ t, c.2.1.testBit t = true ∧ c.1.testBit t = false := by
  induction cs with
  | nil =>
    intro A B os1 h hc _ _ _ _
    cases h
    exact .inl ⟨[], .nil B, rfl, rfl, hc⟩
  | cons x cs ih =>
    intro A B os1 h hc hiA hiB hid hu
    obtain ⟨m1, m2, b⟩ := x
    cases h with
    | @cons _ _ _ _ A' m r os1 g1 g2 =>
      rcases mask_fin hf (m2 := m2) m g1 hc (hiA.inv _) (hiB.inv _) hid (hu _ (List.mem_cons_self ..)) with
        ⟨n2, B', k1, k2⟩ | ⟨n2, B', arg, k1, k2, k3, k4⟩
      · have iA : Inv0 A' := by
          obtain ⟨D, d1, d2⟩ := g1
          exact step_ret (steps_inv d1 (hiA.inv _)) d2
        have iB : Inv0 B' := by
          obtain ⟨D, d1, d2⟩ := k1
          exact step_ret (steps_inv d1 (hiB.inv _)) d2
        rcases ih g2 (k2.clr b) (iA.clr _) (iB.clr _) (g1.idle.clr _)
          (fun x hx => hu x (List.mem_cons_of_mem _ hx)) with ⟨os2, j1, j2, j3, j4⟩ |
            ⟨cs1, c, cs2, os2, C, rfl, j1, j2, j3, j4, j5⟩
        · exact .inl ⟨(r, B') :: os2, .cons k1 j1, by simp [j2], by simp [j3, k2.error], j4⟩
        · exact .inr ⟨(m1, m2, b) :: cs1, c, cs2, (r, B') :: os2, C, rfl, .cons k1 j1, by simp [j2],
            by simp [j3, k2.error], j4, j5⟩
      · exact .inr ⟨[], _, cs, [], B', rfl, .cons k1 (.nil _), rfl, rfl, k2, arg, k3, k4⟩

end Mach

section

open Mach

variable {ι : Type} [Iter ι] {f : Nat → Byte} {S : Source ι f} {e : Enc} {n : Nat}

theorem session_last {sp : Bool} (hw : sp = true → S.wrap) {cs : List (Nat × Bool)} :
    ∀ {A : Cfg} {s s' : Scanner (TextScanner ι)} {l : List Obs}, SRel0 S e s A →
    Scanner.session n sp cs s = (.ok l, s') → ∃ os, Runs e f cs A os ∧ l = os.map (Mach.obs sp) ∧
      SRel0 S e s' (Mach.last A cs os) := by
  induction cs with
  | nil =>
    intro A s s' l h hs
    cases hs
    exact ⟨[], .nil A, rfl, h⟩
  | cons mc cs ih =>
    intro A s s' l h hs
    obtain ⟨mask, c⟩ := mc
    unfold Scanner.session at hs
    generalize hr : Scanner.nextItem n mask s = x at hs
    obtain ⟨x, s1⟩ := x
    cases x with
    | stop er => rw [M.bind_stop hr] at hs; cases hs
    | ok r =>
      obtain ⟨m, B, h1, h2⟩ := nextItem_ok (h.rel mask) hr
      obtain ⟨s2, h4, h5⟩ := h2.clr c
      rw [M.bind_ok hr, M.bind_ok (M.get_run _), M.bind_ok h4, M.bind_run] at hs
      generalize hx : Scanner.session n sp cs s2 = x at hs
      obtain ⟨x, s3⟩ := x
      cases x with
      | stop er => cases hs
      | ok l' =>
        cases hs
        obtain ⟨os, h6, rfl, h7⟩ := ih h5 hx
        exact ⟨(r, B) :: os, .cons h1 h6, by rw [h2.observe hw]; rfl, h7⟩

theorem session_to {sp : Bool} (hS : S.Total) (hw : sp = true → S.wrap) {A : Cfg} {cs : List (Nat × Bool)}
    {os : List (ElementType × Cfg)} (hr : Runs e f cs A os) :
    ∃ N, ∀ n, N ≤ n → ∀ s, SRel0 S e s A →
      ∃ s', Scanner.session n sp cs s = (.ok (os.map (Mach.obs sp)), s') ∧ SRel0 S e s' (Mach.last A cs os) := by
  induction hr with
  | nil A => exact ⟨0, fun n _ s h => ⟨s, rfl, h⟩⟩
  | @cons mask c cs A B m r os h1 _ ih =>
    obtain ⟨N, ih⟩ := ih
    refine ⟨max N (m + 1), fun n hn s h => ?_⟩
    obtain ⟨s1, h2, h3⟩ := nextItem_fin (n := n) hS (h.rel mask) h1 (by omega)
    obtain ⟨s2, h4, h5⟩ := h3.clr c
    obtain ⟨s3, h6, h7⟩ := ih n (by omega) s2 h5
    refine ⟨s3, ?_, h7⟩
    unfold Scanner.session
    rw [M.bind_ok h2, M.bind_ok (M.get_run _), M.bind_ok h4, M.bind_ok h6, h3.observe hw]
    rfl

end

end TW
