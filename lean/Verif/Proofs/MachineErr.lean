import Verif.Proofs.MachineTerm

/-!
# Errors of the step machine
-/

namespace TW

open Spec

namespace Mach

variable {e : Enc} {f : Nat → Byte} {mask : Nat}

/-- A character of a token changes only the output and the end of line state. -/
theorem charStep_eq (A : Cfg) : ∃ o b, charStep e f A =
    { A with out := A.out ++ o, tok := { A.tok with eolCR := b } } := by
  unfold charStep
  split
  · exact ⟨_, true, rfl⟩
  · split
    · split
      · exact ⟨[], false, by simp [tokTo]⟩
      · exact ⟨_, false, rfl⟩
    · exact ⟨_, false, rfl⟩

/-- When a token is complete the current character does not belong to it. -/
def DoneOk (e : Enc) (f : Nat → Byte) (A : Cfg) : Prop :=
  A.tok.id = .ParsingDone → ∀ op arg isTok, (stm A.state).action = some (op, arg) →
    tokenDefs op = some isTok → isTok (cls e f A) = false ∧ cls e f A ≠ .Amp

theorem trans_start {A B : Cfg} {sd : Elem} {rt : ElementType} {r : Option ElementType}
    (h : Mach.trans e f sd rt A = (r, B)) : B.tok.id = .Start := by
  unfold Mach.trans at h
  simp only at h
  repeat' split at h
  all_goals
    simp only [Prod.mk.injEq] at h
    obtain ⟨-, rfl⟩ := h
    rfl

theorem tokStep_done {A B : Cfg} {isTok : Cc → Bool} {r : Option ElementType}
    (hd : A.tok.id ≠ .ParsingDone) (h : tokStep e f isTok A = (r, B)) (hb : B.tok.id = .ParsingDone) :
    B.state = A.state ∧ B.src = A.src ∧ isTok (cls e f A) = false ∧ cls e f A ≠ .Amp := by
  have hid : ∀ i, A.tok.id = i → A.tok.id ≠ .ParsingDone := fun _ _ => hd
  unfold tokStep at h
  cases hi : A.tok.id <;> simp only [hi] at h hd
  · cases h; simp [idTo, tokTo] at hb
  · exact absurd rfl hd
  · cases h; simp [initTok, tokTo, TokState.init] at hb
  · split at h <;> cases h <;> simp [idTo, tokTo, adv] at hb
  · split at h <;> cases h <;> simp [tokTo, adv] at hb
  · split at h
    · split at h <;> cases h <;> simp [fallback, initTok, tokTo, adv, TokState.init] at hb
    · split at h
      · cases h; simp [fallback, initTok, tokTo, TokState.init] at hb
      · split at h <;> cases h
        · simp [fallback, initTok, tokTo, TokState.init] at hb
        · simp [adv, tokTo, store, hi] at hb
  · split at h
    · cases h; simp [adv, tokTo, store, hi] at hb
    · split at h
      · split at h <;> cases h <;> simp [initTok, tokTo, adv, TokState.init] at hb
      · cases h; simp [fallback, initTok, tokTo, TokState.init] at hb
  · split at h
    · cases h
      have : (charStep e f A).tok.id = A.tok.id := by
        unfold charStep
        split
        · rfl
        · split
          · split <;> rfl
          · rfl
      rw [show (adv e f (charStep e f A)).tok.id = (charStep e f A).tok.id from rfl, this, hi] at hb
      cases hb
    · rename_i h1
      split at h
      · cases h; simp [idTo, tokTo, adv] at hb
      · rename_i h2
        cases h
        exact ⟨rfl, rfl, by simpa using h1, h2⟩

theorem return_fallback : ∀ s ∈ STMState.all, ∀ fb, (stm s).nofnext = 0 → (stm s).fallback = some fb →
    (stm fb).action = none := by
  intro s _ fb h0 h
  cases s <;> simp only [stm, Option.some.injEq, reduceCtorEq] at h h0 <;>
    first | omega | (subst h; rfl)

theorem step_done {A B : Cfg} {r : Option ElementType}
    (h : step e f mask A = (r, B)) : DoneOk e f B := by
  intro hb op' arg' isTok' ha' ht'
  unfold step at h
  simp only at h
  split at h
  · rw [trans_start h] at hb; cases hb
  · rename_i op arg ha
    split at h
    · rename_i isTok htd
      split at h
      · rw [trans_start h] at hb; cases hb
      · rename_i hid
        split at h
        · obtain ⟨h1, h2, h3, h4⟩ := tokStep_done hid h hb
          rw [h1, ha] at ha'
          cases ha'
          rw [htd] at ht'
          cases ht'
          have : cls e f B = cls e f A := by unfold cls; rw [h2]
          rw [this]
          exact ⟨h3, h4⟩
        · split at h
          · cases h; exact absurd hb hid
          · rw [trans_start h] at hb; cases hb
    · rename_i htd
      have hno : B.state = A.state → False := by
        intro hs
        rw [hs, ha] at ha'
        cases ha'
        rw [htd] at ht'
        cases ht'
      split at h
      · unfold keyStep at h
        simp only at h
        split at h
        · rw [trans_start h] at hb; cases hb
        · split at h
          · cases h
            split at hno <;> exact (hno rfl).elim
          · split at h
            · cases h; simp [tokTo, adv] at hb
            · cases h; exact (hno rfl).elim
      · have hidle : A.tok.id ≠ .ParsingDone ∨ A.tok.id = .ParsingDone := by
          by_cases h : A.tok.id = .ParsingDone
          · exact .inr h
          · exact .inl h
        split at h
        · rename_i hn
          -- Return without transitions
          rcases hidle with hidle | hidle
          · split at h <;> cases h <;> exact absurd hb hidle
          · split at h
            · rename_i hfb
              cases h
              rw [show ({ A with tokenpos := A.src, out := [], state := _ } : Cfg).state = _ from rfl,
                return_fallback _ (STMState.mem_all _) _ hn hfb] at ha'
              cases ha'
            · cases h; exact (hno rfl).elim
        · rw [trans_start h] at hb; cases hb

theorem steps_done {m : Nat} {A B : Cfg} (h : Steps e f mask m A B) (hi : Inv mask A)
    (hd : DoneOk e f A) : DoneOk e f B := by
  induction h with
  | refl => exact hd
  | cons h1 _ ih => exact ih (step_inv hi h1) (step_done h1)

/-! ## Stable errors -/

/-- Report the error `er`. -/
def errTo (er : Err) (A : Cfg) : Cfg := { idTo .Start A with error := er }

/-- The scanner can do nothing with the current character but report the error `er`. -/
structure Stuck (e : Enc) (f : Nat → Byte) (er : Err) (A : Cfg) : Prop where
  id : A.tok.id = .Start
  next : (stm A.state).next (cls e f A) = none
  fallback : (stm A.state).fallback = none
  error : er = match (stm A.state).miss with
    | some er => er
    | none => if cls e f A = .EndOfText then .ErrUnexpectedEndOfText else .ErrInternal
  tok : ∀ op arg isTok, (stm A.state).action = some (op, arg) → tokenDefs op = some isTok →
    isTok (cls e f A) = false ∧ cls e f A ≠ .Amp

theorem Stuck.trans {A B : Cfg} {er : Err} {rt : ElementType} (hn : (stm A.state).next (cls e f A) = none)
    (hf : (stm A.state).fallback = none) (he : er = match (stm A.state).miss with
    | some er => er
    | none => if cls e f A = .EndOfText then .ErrUnexpectedEndOfText else .ErrInternal)
    (hb : B = errTo er A) :
    Mach.trans e f (stm A.state) rt A = (some .ErrorOccurred, B) := by
  unfold Mach.trans
  simp only [hn, hf]
  rw [hb, he]
  cases (stm A.state).miss <;> rfl

theorem trans_miss {A B : Cfg} {rt : ElementType} (hrt : rt ≠ .ErrorOccurred)
    (h : Mach.trans e f (stm A.state) rt A = (some .ErrorOccurred, B)) :
    (stm A.state).next (cls e f A) = none ∧ (stm A.state).fallback = none ∧
    B = errTo (match (stm A.state).miss with
      | some er => er
      | none => if cls e f A = .EndOfText then .ErrUnexpectedEndOfText else .ErrInternal) A := by
  have hl : Scanner.loopEnd rt ≠ some .ErrorOccurred := by
    unfold Scanner.loopEnd
    split
    · simp
    · simpa using hrt
  unfold Mach.trans at h
  simp only at h
  split at h
  · simp only [Prod.mk.injEq] at h; exact absurd h.1 hl
  · rename_i h1
    split at h
    · simp only [Prod.mk.injEq] at h; exact absurd h.1 hl
    · rename_i h2
      refine ⟨h1, h2, ?_⟩
      split at h <;> rename_i h3 <;> cases h <;> rw [h3] <;> rfl

theorem stm_args : ∀ s ∈ STMState.all, ∀ op arg, (stm s).action = some (op, arg) → arg ≠ .ErrorOccurred := by
  intro s _ op arg h
  cases s <;> simp only [stm, Option.some.injEq, Prod.mk.injEq, reduceCtorEq] at h <;>
    (obtain ⟨-, rfl⟩ := h; decide)

/-- An error other than an undefined entity, outside of the states that read a key word,
leaves the machine stuck. -/
theorem stuck_of_error {A B : Cfg} (hi : Inv mask A) (hd : DoneOk e f A)
    (h : step e f mask A = (some .ErrorOccurred, B)) (hu : B.error ≠ .ErrUndefinedCharacterEntity)
    (hk : ∀ str op, ¬ Keys B.state str op) : Stuck e f B.error B := by
  have fin : ∀ {C : Cfg} {rt : ElementType}, C.state = A.state → C.src = A.src → rt ≠ .ErrorOccurred →
      Mach.trans e f (stm C.state) rt C = (some .ErrorOccurred, B) →
      (∀ op arg isTok, (stm A.state).action = some (op, arg) → tokenDefs op = some isTok →
        isTok (cls e f A) = false ∧ cls e f A ≠ .Amp) → Stuck e f B.error B := by
    intro C rt h1 h2 h3 h4 h5
    obtain ⟨g1, g2, rfl⟩ := trans_miss h3 h4
    refine ⟨rfl, g1, g2, rfl, ?_⟩
    intro op arg isTok h6 h7
    have hc : cls e f A = cls e f C := by unfold cls; rw [h2]
    have h6' : (stm C.state).action = some (op, arg) := h6
    rw [h1] at h6'
    have := h5 op arg isTok h6' h7
    rw [hc] at this
    exact this
  unfold step at h
  simp only at h
  split at h
  · rename_i ha
    exact fin rfl rfl (by decide) h (by intro op arg isTok h1; rw [ha] at h1; cases h1)
  · rename_i op arg ha
    have harg := stm_args _ (STMState.mem_all _) op arg ha
    split at h
    · rename_i isTok htd
      split at h
      · rename_i hid
        refine fin rfl rfl harg h ?_
        exact hd hid
      · rename_i hid
        split at h
        · exfalso
          unfold tokStep at h
          simp only at h
          repeat' split at h
          all_goals first
            | (simp only [Prod.mk.injEq, reduceCtorEq, false_and] at h; done)
            | skip
          · cases h; exact hu rfl
          · rename_i hid2
            obtain ⟨str, op', ⟨arg', h1, h2, h3⟩, -⟩ := hi.key hid2
            rw [ha] at h1
            cases h1
            rw [htd] at h2
            cases h2
        · split at h
          · cases h
          · rename_i hc
            refine fin rfl rfl harg h ?_
            intro op' arg' isTok' h1 h2
            rw [ha] at h1
            cases h1
            rw [htd] at h2
            cases h2
            simpa using hc
    · rename_i htd
      split at h
      · rename_i str hstr
        exfalso
        have hst : B.state = A.state := by
          unfold keyStep at h
          simp only at h
          split at h
          · obtain ⟨-, -, rfl⟩ := trans_miss (by split <;> decide) h
            rfl
          · split at h
            · cases h
            · split at h
              · cases h
              · cases h; rfl
        exact hk str op ⟨arg, by rw [hst]; exact ha, htd, hstr⟩
      · have hno : ∀ op' arg' isTok, (stm A.state).action = some (op', arg') → tokenDefs op' = some isTok →
            isTok (cls e f A) = false ∧ cls e f A ≠ .Amp := by
          intro op' arg' isTok h1 h2
          rw [ha] at h1
          cases h1
          rw [htd] at h2
          cases h2
        split at h
        · split at h <;> cases h <;> exact absurd rfl harg
        · exact fin (C := { A with tokenpos := A.src, out := [] }) rfl rfl harg h hno

/-- A stuck machine reports the same error at the same place again and again. -/
theorem Stuck.again {A : Cfg} {er : Err} (h : Stuck e f er A) (hx : A.state ≠ .EXIT)
    (hk : ∀ str op, ¬ Keys A.state str op) (mask : Nat) :
    ∃ m B, m ≤ 2 ∧ Fin e f mask m A .ErrorOccurred B ∧ B.src = A.src ∧ B.state = A.state ∧
      B.error = er ∧ Stuck e f er B := by
  have fin : ∀ {C : Cfg} {rt : ElementType}, C.state = A.state → C.src = A.src →
      Mach.trans e f (stm C.state) rt C = (some .ErrorOccurred, errTo er C) ∧
      Stuck e f er (errTo er C) := by
    intro C rt h1 h2
    have hc : cls e f C = cls e f A := by unfold cls; rw [h2]
    refine ⟨Stuck.trans (by rw [h1, hc]; exact h.next) (by rw [h1]; exact h.fallback)
      (by rw [h1, hc]; exact h.error) rfl, rfl, ?_, ?_, ?_, ?_⟩
    · show (stm C.state).next (cls e f C) = none
      rw [h1, hc]; exact h.next
    · show (stm C.state).fallback = none
      rw [h1]; exact h.fallback
    · show er = match (stm C.state).miss with
        | some er => er
        | none => if cls e f C = .EndOfText then .ErrUnexpectedEndOfText else .ErrInternal
      rw [h1, hc]; exact h.error
    · show ∀ op arg isTok, (stm C.state).action = some (op, arg) → tokenDefs op = some isTok →
        isTok (cls e f C) = false ∧ cls e f C ≠ .Amp
      rw [h1, hc]; exact h.tok
  have out : ∀ {C : Cfg} {m : Nat}, C.state = A.state → C.src = A.src → Steps e f mask m A C → m ≤ 2 →
      (∃ rt, step e f mask C = Mach.trans e f (stm C.state) rt C) → ∃ m B, m ≤ 2 ∧
      Fin e f mask m A .ErrorOccurred B ∧ B.src = A.src ∧ B.state = A.state ∧
      B.error = er ∧ Stuck e f er B := by
    rintro C m h1 h2 h3 hm ⟨rt, h4⟩
    obtain ⟨h5, h6⟩ := fin (rt := rt) h1 h2
    exact ⟨m, errTo er C, hm, ⟨C, h3, by rw [h4]; exact h5⟩, h2, h1, rfl, h6⟩
  cases ha : (stm A.state).action with
  | none =>
    refine out rfl rfl (.refl A) (by omega) ⟨.None, ?_⟩
    unfold step
    simp only [ha]
  | some oa =>
    obtain ⟨op, arg⟩ := oa
    cases htd : tokenDefs op with
    | some isTok =>
      obtain ⟨ht1, ht2⟩ := h.tok op arg isTok ha htd
      cases hm : mask.testBit arg.toNat with
      | true =>
        have s1 : step e f mask A = (none, idTo .ParsingToken { A with tokenpos := A.src, out := [] }) := by
          unfold step
          simp only [ha, htd, h.id, hm]
          unfold tokStep
          simp only [h.id]
          rfl
        have s2 : step e f mask (idTo .ParsingToken { A with tokenpos := A.src, out := [] })
            = (none, initTok .ParsingDone (idTo .ParsingToken { A with tokenpos := A.src, out := [] })) := by
          unfold step
          simp only [show (idTo .ParsingToken { A with tokenpos := A.src, out := [] }).state = A.state from rfl,
            ha, htd, hm]
          unfold tokStep
          simp only [show (idTo .ParsingToken { A with tokenpos := A.src, out := [] }).tok.id
            = .ParsingToken from rfl,
            show cls e f (idTo .ParsingToken { A with tokenpos := A.src, out := [] }) = cls e f A from rfl,
            ht1, if_neg ht2]
          rfl
        refine out (m := 2) (C := initTok .ParsingDone (idTo .ParsingToken { A with tokenpos := A.src, out := [] }))
          rfl rfl (.cons s1 (.one s2)) (by omega) ⟨arg, ?_⟩
        unfold step
        simp only [show (initTok .ParsingDone (idTo .ParsingToken { A with tokenpos := A.src, out := [] })).state = A.state from rfl,
            ha, htd]
        rfl
      | false =>
        refine out rfl rfl (.refl A) (by omega) ⟨arg, ?_⟩
        unfold step
        simp only [ha, htd, h.id, hm, ht1, ht2]
        rfl
    | none =>
      cases hsd : stringDefs op with
      | some str => exact absurd ⟨arg, ha, htd, hsd⟩ (hk str op)
      | none =>
        have hn : (stm A.state).nofnext ≠ 0 := by
          intro hn
          have : ∀ s ∈ STMState.all, (stm s).nofnext = 0 → s ≠ .EXIT → (stm s).fallback ≠ none := by
            decide +kernel
          exact this _ (STMState.mem_all _) hn hx h.fallback
        obtain ⟨h5, h6⟩ := fin (C := { A with tokenpos := A.src, out := [] }) (rt := arg) rfl rfl
        refine ⟨0, errTo er { A with tokenpos := A.src, out := [] }, by omega, ⟨A, .refl A, ?_⟩, rfl, rfl, rfl, h6⟩
        unfold step
        simp only [ha, htd, hsd, if_neg hn]
        exact h5

/-! ## The internal error is never reported -/

theorem stm_internal : ∀ s ∈ STMState.all, (∀ c, (stm s).next c = none → (stm s).fallback = none →
    (stm s).miss = none → s = .EXIT) ∧ (stm s).miss ≠ some .ErrInternal := by
  intro s _
  refine ⟨?_, ?_⟩
  · intro c
    cases s <;> cases c <;> simp [stm]
  · cases s <;> simp [stm]

theorem trans_internal {A B : Cfg} {rt : ElementType} {r : Option ElementType}
    (he : A.error ≠ .ErrInternal) (hx : A.state ≠ .EXIT)
    (h : Mach.trans e f (stm A.state) rt A = (r, B)) : B.error ≠ .ErrInternal := by
  obtain ⟨h1, h2⟩ := stm_internal _ (STMState.mem_all A.state)
  unfold Mach.trans at h
  simp only at h
  split at h
  · simp only [Prod.mk.injEq] at h; obtain ⟨-, rfl⟩ := h; exact he
  · rename_i h3
    split at h
    · simp only [Prod.mk.injEq] at h; obtain ⟨-, rfl⟩ := h; exact he
    · rename_i h4
      split at h
      · rename_i h5
        cases h
        intro h6
        rw [h5] at h2
        exact h2 (by rw [← h6])
      · rename_i h5
        exact absurd (h1 _ h3 h4 h5) hx

theorem step_internal {A B : Cfg} {r : Option ElementType} (hi : Inv mask A) (he : A.error ≠ .ErrInternal)
    (h : step e f mask A = (r, B)) : B.error ≠ .ErrInternal := by
  by_cases hx : A.state = .EXIT
  · unfold step at h
    simp only [hx, stm_exit.1, stm_exit.2, tokenDefs, stringDefs, if_pos] at h
    split at h <;> cases h <;> exact he
  unfold step at h
  simp only at h
  split at h
  · exact trans_internal he hx h
  · rename_i op arg ha
    split at h
    · rename_i isTok htd
      split at h
      · exact trans_internal he hx h
      · split at h
        · have hkey : A.tok.id ≠ .ParsingKey := by
            intro hid2
            obtain ⟨str, op', ⟨arg', h1, h2, h3⟩, -⟩ := hi.key hid2
            rw [ha] at h1
            cases h1
            rw [htd] at h2
            cases h2
          unfold tokStep at h
          simp only at h
          repeat' split at h
          all_goals first
            | (simp only [Prod.mk.injEq] at h; obtain ⟨-, rfl⟩ := h; exact he)
            | (simp only [Prod.mk.injEq] at h; obtain ⟨-, rfl⟩ := h
               obtain ⟨o, b, ho⟩ := charStep_eq (e := e) (f := f) A
               rw [ho]; exact he)
            | (simp only [Prod.mk.injEq] at h; obtain ⟨-, rfl⟩ := h; simp [initTok, tokTo]; done)
            | (rename_i hk; exact absurd hk hkey)
        · split at h
          · cases h; exact he
          · exact trans_internal he hx h
    · split at h
      · unfold keyStep at h
        simp only at h
        split at h
        · exact trans_internal he hx h
        · split at h
          · cases h
            split <;> exact he
          · split at h
            · cases h; exact he
            · cases h
              show (if _ then _ else _) ≠ _
              split <;> simp
      · split at h
        · split at h <;> cases h <;> exact he
        · exact trans_internal (A := { A with tokenpos := A.src, out := [] }) he hx h

end Mach

end TW
