import Verif.Proofs.Cut
import Verif.Proofs.Calls
import Verif.Proofs.Reach

/-!
# Where an error is found

Each state of the automaton has a way to the exit. So what was read before an error is the beginning of a text that leads
to the exit; with the character at which the error is found it is not.
-/

namespace TW.Mach

open Spec Scanner

variable {e : Enc} {f : Nat → Byte} {mask : Nat}

/-- A character that leads to the exit, and the next state. -/
def way : STMState → Byte × STMState
  | .START => (0, .EXIT)
  | .STARTTAG => (33, .ENTITYSL)
  | .XTAG => (63, .XTAGEND)
  | .PITAG => (63, .PITAGEND)
  | .PITAGEND => (62, .CONTENT)
  | .XTAGEND => (62, .XTAGDONE)
  | .XTAGDONE => (0, .DOCSTART)
  | .XTAGAISK => (63, .XTAGEND)
  | .XTAGANAM => (61, .XTAGAVSK)
  | .XTAGAESK => (61, .XTAGAVSK)
  | .XTAGAVSK => (39, .XTAGAVSQ)
  | .XTAGAVID => (63, .XTAGEND)
  | .XTAGAVSQ => (39, .XTAGAVQE)
  | .XTAGAVDQ => (34, .XTAGAVQE)
  | .XTAGAVQE => (63, .XTAGEND)
  | .DOCSTART => (0, .EXIT)
  | .CONTENT => (0, .EXIT)
  | .TOKEN => (0, .EXIT)
  | .SEEKTOK => (0, .EXIT)
  | .XMLTAG => (63, .PITAG)
  | .OPENTAG => (62, .CONTENT)
  | .CLOSETAG => (62, .CONTENT)
  | .TAGCLSK => (62, .CONTENT)
  | .TAGAISK => (62, .CONTENT)
  | .TAGANAM => (61, .TAGAVSK)
  | .TAGAESK => (61, .TAGAVSK)
  | .TAGAVSK => (39, .TAGAVSQ)
  | .TAGAVID => (62, .CONTENT)
  | .TAGAVSQ => (39, .TAGAVQE)
  | .TAGAVDQ => (34, .TAGAVQE)
  | .TAGAVQE => (62, .CONTENT)
  | .TAGCLIM => (62, .CONTENT)
  | .ENTITYSL => (45, .COMDASH2)
  | .ENTITY => (62, .ENTITYE)
  | .ENTITYE => (0, .SEEKTOK)
  | .ENTITYID => (62, .ENTITYE)
  | .ENTITYSQ => (39, .ENTITY)
  | .ENTITYDQ => (34, .ENTITY)
  | .ENTITYLC => (93, .ENTITY)
  | .COMDASH2 => (45, .COMSEEKE)
  | .COMSEEKE => (45, .COMENDD2)
  | .COMENDD2 => (45, .COMENDCL)
  | .COMENDCL => (62, .SEEKTOK)
  | .CDATA => (91, .CDATA1)
  | .CDATA1 => (93, .CDATA2)
  | .CDATA2 => (93, .CDATA3)
  | .CDATA3 => (62, .CONTENT)
  | .EXIT => (0, .EXIT)

/-- The states with a way that begins with a character. -/
def onWay (q : STMState) : Bool := q ≠ .EXIT && q ≠ .XTAGDONE && q ≠ .ENTITYE

/-- The character does not belong to the token of the state. -/
def outside (q : STMState) (b : Byte) : Bool :=
  match (stm q).action with
  | none => true
  | some (op, _) =>
    match tokenDefs op with
    | none => true
    | some isTok => !isTok (controlCharMap b) && controlCharMap b ≠ .Amp

theorem way_ok : ∀ q ∈ STMState.all, onWay q = true → (stm q).next (controlCharMap (way q).1) = some (way q).2 ∧ outside q (way q).1 = true := by
  decide +kernel

theorem way_ret : ∀ q ∈ STMState.all, onWay q = true → ∀ x ∈ (stm q).action, tokenDefs x.1 = none → stringDefs x.1 = none → (stm q).nofnext ≠ 0 := by
  intro q _ h x hx h1 h2
  cases q <;> simp only [stm, Option.mem_def, reduceCtorEq, Option.some.injEq] at hx <;> subst hx <;>
    first | (cases h1; done) | (cases h2; done) | (cases h; done) | (simp [stm])

/-- The number of steps to the exit. -/
def far : Nat → STMState → Bool
  | 0, q => q = .EXIT
  | n + 1, q => q = .EXIT || far n (way q).2

theorem far_all : ∀ q ∈ STMState.all, far 16 q = true := by decide +kernel

theorem outside_tok {q : STMState} {b : Byte} {op : STMAction} {arg : ElementType} {isTok : Cc → Bool} (h : outside q b = true)
    (h1 : (stm q).action = some (op, arg)) (h2 : tokenDefs op = some isTok) : ¬ inToken isTok b := by
  unfold outside at h
  rw [h1] at h
  simp only [h2, Bool.and_eq_true, Bool.not_eq_true', ne_eq, decide_not] at h
  rintro (h3 | h3)
  · rw [h.1] at h3; cases h3
  · simp [h3] at h

theorem live_far : ∀ (n : Nat) {q : STMState}, far n q = true → ∃ as ts, Auto q as ts
  | 0, q, h => by
    unfold far at h
    have := of_decide_eq_true h
    subst this
    exact ⟨[], _, .exit⟩
  | n + 1, q, h => by
    by_cases hq : q = .EXIT
    · subst hq; exact ⟨[], _, .exit⟩
    have hf : far n (way q).2 = true := by
      unfold far at h
      rw [decide_eq_false hq, Bool.false_or] at h
      exact h
    obtain ⟨as, ts, ha⟩ := live_far n hf
    cases ho : onWay q with
    | false =>
      have : q = .XTAGDONE ∨ q = .ENTITYE := by
        revert ho hq
        cases q <;> decide
      rcases this with rfl | rfl
      · exact ⟨as, _, .ret0 rfl rfl rfl rfl rfl ha⟩
      · exact ⟨as, _, .ret0 rfl rfl rfl rfl rfl ha⟩
    | true =>
      obtain ⟨h1, h2⟩ := way_ok q (STMState.mem_all q) ho
      have hm : Move q ((way q).1 :: as) (way q).2 as := .inl ⟨_, rfl, h1⟩
      rcases hact : (stm q).action with _ | ⟨op, arg⟩
      · exact ⟨_, _, .plain hact hm ha⟩
      · rcases ht : tokenDefs op with _ | isTok
        · rcases hstr : stringDefs op with _ | str
          · exact ⟨_, _, .ret hact ht hstr (way_ret q (STMState.mem_all q) ho _ hact ht hstr) hm ha⟩
          · exact ⟨_, _, .key hact ht hstr hm ha⟩
        · refine ⟨_, _, .tok (t := []) hact ht nofun (fun b hb => ?_) hm ha⟩
          cases hb
          exact outside_tok h2 hact ht

/-- From each state there is a way to the exit. -/
theorem live (q : STMState) : ∃ as ts, Auto q as ts := live_far 16 (far_all q (STMState.mem_all q))

/-- Also with a token or a key word that is read. -/
theorem live_busy {q : STMState} (h : Busy q) : ∃ b as ts, Move q (b :: as) (way q).2 as ∧ Auto (way q).2 as ts ∧ outside q b = true := by
  have ho : onWay q = true := by
    obtain ⟨op, arg, h1, h2⟩ := h
    cases q <;> first | rfl | (exfalso; cases h1; revert h2; decide)
  obtain ⟨h1, h2⟩ := way_ok q (STMState.mem_all q) ho
  obtain ⟨as, ts, ha⟩ := live (way q).2
  exact ⟨_, as, ts, .inl ⟨_, rfl, h1⟩, ha, h2⟩

/-- From each configuration there is a way to the exit. -/
theorem live_left {A : Cfg} (hi : Inv mask A) (hb : A.tok.id = .ParsingDone → Busy A.state) : ∃ z ts, Left A z ts := by
  have htok : inTok A.tok.id = true → ∃ z ts, Left A z ts := by
    intro h
    obtain ⟨isTok, arg, op, h1, h2, -⟩ := hi.tok h
    obtain ⟨b, as, ts, h3, h4, h5⟩ := live_busy (q := A.state) ⟨op, arg, h1, .inl (by rw [h2]; nofun)⟩
    refine ⟨b :: as, arg :: ts, fun h' => absurd h (inTok_ne h' rfl), fun h' => absurd h (inTok_ne h' rfl), fun h' => absurd h (inTok_ne h' rfl),
      fun _ => ⟨op, arg, isTok, [], b :: as, h1, h2, nofun, fun x hx => ?_, rfl, _, as, ts, h3, h4, rfl⟩⟩
    cases hx
    exact outside_tok h5 h1 h2
  cases hid : A.tok.id
  · obtain ⟨z, ts, h⟩ := live A.state
    exact ⟨z, ts, .ofStart hid h⟩
  · obtain ⟨b, as, ts, h3, h4, -⟩ := live_busy (hb hid)
    exact ⟨b :: as, doneTypes A.state ++ ts, fun h' => (by rw [hid] at h'; cases h'), fun _ => ⟨_, as, ts, h3, h4, rfl⟩,
      fun h' => (by rw [hid] at h'; cases h'), fun h' => absurd h' (inTok_ne hid rfl)⟩
  · obtain ⟨str, op, ⟨arg, h1, h2, h0⟩, -⟩ := hi.key hid
    obtain ⟨b, as, ts, h3, h4, -⟩ := live_busy (q := A.state) ⟨op, arg, h1, .inr (by rw [h0]; nofun)⟩
    exact ⟨str.drop A.tok.pos ++ b :: as, keyTypes op ++ ts, fun h' => (by rw [hid] at h'; cases h'), fun h' => (by rw [hid] at h'; cases h'),
      fun _ => ⟨op, arg, str, b :: as, h1, h2, h0, rfl, _, as, ts, h3, h4, rfl⟩, fun h' => absurd h' (inTok_ne hid rfl)⟩
  all_goals exact htok (by rw [hid]; rfl)

theorem offs_one (k : Nat) : offs e f k 1 = k + ulen e f k := by rw [offs_succ]; rfl

/-- Back over a step. -/
theorem back_step {A B : Cfg} {r : Option ElementType} {p : Nat} (hi : Inv mask A) (hb : A.tok.id = .ParsingDone → Busy A.state)
    (hs : step e f mask A = (r, B)) (hr : r ≠ some .ErrorOccurred) (hx : r ≠ some .Exit) (hiB : ∃ mask, Inv mask B)
    (h : B.src = p ∨ ∃ n z ts, n ≠ 0 ∧ offs e f B.src n = p ∧ Left B (seen e f z B.src n) ts) :
    A.src = p ∨ ∃ n z ts, n ≠ 0 ∧ offs e f A.src n = p ∧ Left A (seen e f z A.src n) ts := by
  obtain ⟨h1, h2⟩ := step_left hi hb hs hr hx
  have fin : ∀ {n n' : Nat} {z : List Byte} {ts : List ElementType}, Back e f A B n' n → offs e f B.src n = p → (n ≠ 0 ∨ B.src ≠ A.src) →
      Left A (seen e f z A.src n') ts → ∃ n z ts, n ≠ 0 ∧ offs e f A.src n = p ∧ Left A (seen e f z A.src n) ts := by
    intro n n' z ts h3 h4 h5 h6
    rcases h3 with ⟨rfl, h3⟩ | ⟨rfl, h3⟩
    · exact ⟨_, z, ts, by rcases h5 with h5 | h5; exact h5; exact absurd h3 h5, by rw [← h3]; exact h4, h6⟩
    · exact ⟨_, z, ts, Nat.succ_ne_zero _, by rw [offs_succ, ← h3]; exact h4, h6⟩
  rcases h with h | ⟨n, z, ts, h3, h4, h5⟩
  · by_cases he : B.src = A.src
    · exact .inl (by rw [← he]; exact h)
    · right
      obtain ⟨maskB, hiB⟩ := hiB
      obtain ⟨z, ts, h3⟩ := live_left hiB h1
      obtain ⟨n', h4, h5⟩ := h2 (z := z) (n := 0) (.inr (.inr he)) h3
      exact fin h4 h (.inr he) h5
  · obtain ⟨n', h6, h7⟩ := h2 (.inl h3) h5
    exact .inr (fin h6 h4 (.inl h3) h7)

/-- What is read on a run can be continued. -/
theorem PassesTo.back {E : Cfg} {last mask : Nat} {A : Cfg} {ts : List ElementType} (h : PassesTo e f (fun m X _ => X = E ∧ m = last) mask A ts) :
    Inv mask A → (A.tok.id = .ParsingDone → Busy A.state) →
    A.src = E.src ∨ ∃ n z ts, n ≠ 0 ∧ offs e f A.src n = E.src ∧ Left A (seen e f z A.src n) ts := by
  induction h with
  | base h => intro _ _; exact .inl (by rw [h.1])
  | @silent mask A B ts hs _ ih =>
    intro hi hb
    have := (step_left hi hb hs nofun nofun).1
    exact back_step hi hb hs nofun nofun ⟨_, step_inv hi hs⟩ (ih (step_inv hi hs) this)
  | @item mask mask' A B r ts c hs hr hx _ ih =>
    intro hi hb
    have hr' : some r ≠ some .ErrorOccurred := fun h => hr (Option.some.inj h)
    have hx' : some r ≠ some .Exit := fun h => hx (Option.some.inj h)
    have h1 := (step_left hi hb hs hr' hx').1
    have h0 := step_ret hi hs
    obtain ⟨e1, e2, e3⟩ := clr_same c B
    refine back_step hi hb hs hr' hx' ⟨_, h0.inv mask⟩ ?_
    rcases ih ((h0.clr c).inv mask') (by rw [e1, e2]; exact h1) with h2 | ⟨n, z, ts, h2, h3, h4⟩
    · exact .inl (by rw [← e3]; exact h2)
    · rw [e3] at h3 h4
      exact .inr ⟨n, z, ts, h2, h3, h4.congr e1.symm e2.symm⟩
  | @undef mask mask' A B ts c hs he _ ih =>
    intro hi hb
    obtain ⟨h1, h2, h3, h4, -⟩ := step_undef hi hs he
    have h0 := step_ret hi hs
    obtain ⟨e1, e2, e3⟩ := clr_same c B
    rcases ih ((h0.clr c).inv mask') (by rw [e1, h4]; nofun) with h5 | ⟨n, z, ts, h5, h6, h7⟩
    · exact .inl (by rw [← h3, ← e3]; exact h5)
    · have h8 := h7.start (by rw [e1]; exact h4)
      rw [e2, e3, h2, h3] at h8
      rw [e3, h3] at h6
      exact .inr ⟨n, z, ts, h5, h6, undef_left hi hs he h8⟩

/-- The position does not get smaller. -/
theorem PassesTo.mono {E : Cfg} {last mask : Nat} {A : Cfg} {ts : List ElementType} (h : PassesTo e f (fun m X _ => X = E ∧ m = last) mask A ts) :
    A.src ≤ E.src := by
  induction h with
  | base h => rw [h.1]; exact Nat.le_refl _
  | silent hs _ ih => have := (step_shape hs).mono; omega
  | @item mask mask' A B r ts c hs _ _ _ ih => have := (step_shape hs).mono; rw [(clr_same c B).2.2] at ih; omega
  | @undef mask mask' A B ts c hs _ _ ih => have := (step_shape hs).mono; rw [(clr_same c B).2.2] at ih; omega

theorem consumes_offs {A B : Cfg} {n n' : Nat} (h : Consumes e f A B n n') : offs e f B.src n' = offs e f A.src n := by
  rcases h with ⟨rfl, h⟩ | ⟨rfl, h, -⟩
  · rw [h]
  · rw [offs_succ, h]

/-- A run on the beginning of a text that leads to the exit follows the automaton. -/
theorem PassesTo.fwd {E : Cfg} {last mask : Nat} {A : Cfg} {us : List ElementType} (h : PassesTo e f (fun m X _ => X = E ∧ m = last) mask A us)
    {z : List Byte} : ∀ {n : Nat} {ts : List ElementType}, Inv mask A → (A.tok.id = .ParsingDone → Busy A.state) →
    Left A (seen e f z A.src n) ts → E.src < offs e f A.src n →
    ∃ n ts, Inv last E ∧ (E.tok.id = .ParsingDone → Busy E.state) ∧ Left E (seen e f z E.src n) ts ∧ n ≠ 0 := by
  have hn0 : ∀ {X : Cfg} {n : Nat}, X.src ≤ E.src → E.src < offs e f X.src n → n ≠ 0 := by
    rintro X n h1 h2 rfl
    have : offs e f X.src 0 = X.src := rfl
    omega
  induction h with
  | base h =>
    intro n ts hi hb hl hp
    obtain ⟨rfl, rfl⟩ := h
    exact ⟨n, ts, hi, hb, hl, hn0 (Nat.le_refl _) hp⟩
  | @silent mask A B us hs hp' ih =>
    intro n ts hi hb hl hp
    have hn := hn0 (PassesTo.silent hs hp').mono hp
    rcases step_forward' (.inl hn) hi hb hl hs with ⟨h1, -⟩ | ⟨h1, -⟩ | ⟨-, -, n', ts', -, h4, h5⟩
    · cases h1
    · cases h1
    · exact ih (step_inv hi hs) (step_left hi hb hs nofun nofun).1 h4 (by rw [consumes_offs h5]; exact hp)
  | @item mask mask' A B r us c hs hr hx hp' ih =>
    intro n ts hi hb hl hp
    have hn := hn0 (PassesTo.item hs hr hx hp').mono hp
    have h0 := step_ret hi hs
    obtain ⟨e1, e2, e3⟩ := clr_same c B
    rcases step_forward' (.inl hn) hi hb hl hs with ⟨h1, -⟩ | ⟨h1, -⟩ | ⟨h1, h2, n', ts', -, h4, h5⟩
    · exact absurd (Option.some.inj h1) hx
    · exact absurd (Option.some.inj h1) hr
    · exact ih ((h0.clr c).inv mask') (by rw [e1, e2]; exact (step_left hi hb hs h2 h1).1) (by rw [e3]; exact h4.congr e1 e2)
        (by rw [e3, consumes_offs h5]; exact hp)
  | @undef mask mask' A B us c hs he hp' ih =>
    intro n ts hi hb hl hp
    have hn := hn0 (PassesTo.undef hs he hp').mono hp
    have h0 := step_ret hi hs
    obtain ⟨e1, e2, e3⟩ := clr_same c B
    rcases step_forward' (.inl hn) hi hb hl hs with ⟨h1, -⟩ | ⟨-, -, h3, h4, h5⟩ | ⟨-, h1, -⟩
    · cases h1
    · exact ih ((h0.clr c).inv mask') (by rw [e1, h3]; nofun) (by rw [e3]; exact h5.congr e1 e2) (by rw [e3, h4]; exact hp)
    · exact absurd rfl h1

/-- An error other than an unknown entity is found at the first character that cannot be continued. -/
theorem first_error {A E B : Cfg} {last : Nat} {us : List ElementType} (h : PassesTo e f (fun m X _ => X = E ∧ m = last) mask A us) (hi : Inv0 A)
    (hs0 : A.tok.id = .Start) (hs : step e f last E = (some .ErrorOccurred, B)) (he : B.error ≠ .ErrUndefinedCharacterEntity) :
    (∃ n z ts, offs e f A.src n = E.src ∧ Auto A.state (seen e f z A.src n) ts) ∧
    ∀ n z ts, E.src < offs e f A.src n → ¬ Auto A.state (seen e f z A.src n) ts := by
  have hb : A.tok.id = .ParsingDone → Busy A.state := fun h => by rw [hs0] at h; cases h
  refine ⟨?_, ?_⟩
  · rcases h.back (hi.inv mask) hb with h1 | ⟨n, z, ts, -, h1, h2⟩
    · obtain ⟨z, ts, h2⟩ := live A.state
      exact ⟨0, z, ts, h1, h2⟩
    · exact ⟨n, z, ts, h1, h2.start hs0⟩
  · intro n z ts h1 h2
    obtain ⟨n', ts', h3, h4, h5, h6⟩ := h.fwd (hi.inv mask) hb (.ofStart hs0 h2) h1
    rcases step_forward' (.inl h6) h3 h4 h5 hs with ⟨k, -⟩ | ⟨-, k, -⟩ | ⟨-, k, -⟩
    · cases k
    · exact he k
    · exact k rfl

/-! ## Errors in a session -/

theorem trans_err {A B : Cfg} {rt : ElementType} (hrt : rt ≠ .ErrorOccurred) (h : Mach.trans e f (stm A.state) rt A = (some .ErrorOccurred, B)) :
    B.src = A.src := by
  have hl : Scanner.loopEnd rt ≠ some .ErrorOccurred := by
    unfold Scanner.loopEnd
    split
    · nofun
    · exact fun h => hrt (Option.some.inj h)
  unfold Mach.trans at h
  simp only at h
  split at h
  · exact absurd (congrArg Prod.fst h) hl
  · split at h
    · exact absurd (congrArg Prod.fst h) hl
    · split at h <;> cases h <;> rfl

/-- At an error no character is read. -/
theorem step_err_src {A B : Cfg} (hs : step e f mask A = (some .ErrorOccurred, B)) : B.src = A.src := by
  have hargs : ∀ op arg, (stm A.state).action = some (op, arg) → arg ≠ .ErrorOccurred := by
    intro op arg h
    generalize A.state = q at h
    cases q <;> simp only [stm, Option.some.injEq, Prod.mk.injEq, reduceCtorEq] at h <;> (obtain ⟨-, rfl⟩ := h; nofun)
  unfold step at hs
  simp only at hs
  rcases hact : (stm A.state).action with _ | ⟨op, arg⟩
  · rw [hact] at hs
    exact trans_err (rt := .None) nofun hs
  have harg := hargs op arg hact
  rw [hact] at hs
  simp only at hs
  rcases ht : tokenDefs op with _ | isTok
  · rw [ht] at hs
    simp only at hs
    rcases hstr : stringDefs op with _ | str
    · rw [hstr] at hs
      simp only at hs
      split at hs
      · exact absurd (Option.some.inj (congrArg Prod.fst hs)) harg
      · exact trans_err (A := { A with tokenpos := A.src, out := [] }) harg hs
    · rw [hstr] at hs
      simp only at hs
      unfold keyStep at hs
      simp only at hs
      split at hs
      · exact trans_err (by split <;> nofun) hs
      · split at hs
        · cases hs
        · split at hs
          · cases hs
          · cases hs; rfl
  · rw [ht] at hs
    simp only at hs
    split at hs
    · exact trans_err harg hs
    · split at hs
      · unfold tokStep at hs
        repeat' (first | split at hs | (cases hs; done) | (cases hs; rfl) | dsimp only at hs)
      · split at hs
        · cases hs
        · exact trans_err harg hs

/-- The run up to the last call of a session. -/
theorem passes_to_last {calls : List (Nat × Bool)} {A : Cfg} {os : List (ElementType × Cfg)} {r : ElementType} {B : Cfg} {last : Nat × Bool}
    (he : ∀ o ∈ os, o.1 = .ErrorOccurred → o.2.error = .ErrUndefinedCharacterEntity)
    (hx : .Exit ∉ os.map (·.1)) (h : Runs e f (calls ++ [last]) A (os ++ [(r, B)])) :
    ∃ E mask ts, PassesTo e f (fun m X _ => X = E ∧ m = last.1) mask A ts ∧ step e f last.1 E = (some r, B) := by
  induction calls generalizing A os with
  | nil =>
    cases os with
    | nil =>
      cases h with
      | cons h1 _ =>
        obtain ⟨A1, h3, h4⟩ := h1
        exact ⟨A1, _, [], .steps h3 (.base ⟨rfl, rfl⟩), h4⟩
    | cons o os =>
      cases h with
      | cons _ h2 => cases os <;> cases h2
  | cons x cs ih =>
    cases os with
    | nil =>
      cases h with
      | cons _ h2 => cases cs <;> cases h2
    | cons o os =>
      obtain ⟨r1, B1⟩ := o
      cases h with
      | @cons mask c _ _ _ m _ _ h1 h2 =>
        obtain ⟨A1, h3, h4⟩ := h1
        obtain ⟨E, mask', ts, h5, h6⟩ := ih (fun o ho => he o (List.mem_cons_of_mem _ ho))
          (fun h => hx (List.mem_cons_of_mem _ h)) h2
        refine ⟨E, mask, ?_⟩
        by_cases hre : r1 = .ErrorOccurred
        · subst hre
          exact ⟨ts, .steps h3 (.undef h4 (he _ (List.mem_cons_self ..) rfl) h5), h6⟩
        · exact ⟨r1 :: ts, .steps h3 (.item h4 hre (fun h => hx (by subst h; exact List.mem_cons_self ..)) h5), h6⟩

end TW.Mach

namespace TW

open Spec Mach

variable {ι : Type} [Iter ι] {f : Nat → Byte} {S : Source ι f} {e : Enc} {n : Nat}

/-- The configuration at the end of a session goes on with the run. -/
theorem session_then {sp : Bool} (hw : sp = true → S.wrap) {cs : List (Nat × Bool)} :
    ∀ {A : Cfg} {s s' : Scanner (TextScanner ι)} {l : List Obs}, SRel0 S e s A →
    Scanner.session n sp cs s = (.ok l, s') → ∃ os A', l = os.map (Mach.obs sp) ∧ SRel0 S e s' A' ∧
      ∀ cs' os', Runs e f cs' A' os' → Runs e f (cs ++ cs') A (os ++ os') := by
  induction cs with
  | nil =>
    intro A s s' l h hs
    cases hs
    exact ⟨[], A, rfl, h, fun _ _ h => h⟩
  | cons mc cs ih =>
    intro A s s' l h hs
    obtain ⟨mask, c⟩ := mc
    unfold Scanner.session at hs
    generalize hr : Scanner.nextItem n mask s = x at hs
    obtain ⟨x, s1⟩ := x
    cases x with
    | stop er => rw [M.bind_stop hr] at hs; cases hs
    | ok r =>
      obtain ⟨m, B, h1, h2⟩ := nextItem_ok (h.rel mask) hr
      obtain ⟨s2, h4, h5⟩ := h2.clr c
      rw [M.bind_ok hr, M.bind_ok (M.get_run _), M.bind_ok h4, M.bind_run] at hs
      generalize hx : Scanner.session n sp cs s2 = x at hs
      obtain ⟨x, s3⟩ := x
      cases x with
      | stop er => cases hs
      | ok l' =>
        cases hs
        obtain ⟨os, A', rfl, h7, h8⟩ := ih h5 hx
        exact ⟨(r, B) :: os, A', by rw [h2.observe hw]; rfl, h7, fun cs' os' h => .cons h1 (h8 cs' os' h)⟩

end TW
