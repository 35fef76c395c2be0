import Verif.Proofs.Session

/-!
# Termination of the step machine
-/

namespace TW

open Spec

namespace Mach

variable {e : Enc} {f : Nat → Byte} {mask : Nat}

/-- States in which the scanner looks for the end of a comment, a processing instruction, a
CDATA section or an internal subset, and that do not react on the end of the text. -/
def lost : List STMState :=
  [.PITAG, .ENTITYLC, .COMSEEKE, .COMENDD2, .COMENDCL, .CDATA1, .CDATA2, .CDATA3]

/-- Length of the chain of fallbacks from a state. -/
def height : STMState → Nat
  | .STARTTAG | .XTAGAISK | .XTAGAVSK | .DOCSTART | .CONTENT | .SEEKTOK | .XMLTAG | .TAGAISK
  | .TAGAVSK | .ENTITY => 1
  | .ENTITYSL => 2
  | _ => 0

/-- Order of the phases of token parsing. -/
def phase : TokId → Nat
  | .Start => 7
  | .ParsingEntity | .ParsingNumericEntity => 6
  | .ParsingNumericBaseEntity | .ParsingNamedEntity => 5
  | .ParsingToken => 4
  | .ParsingKey => 2
  | .ParsingDone => 1

theorem phase_le (i : TokId) : phase i ≤ 7 := by cases i <;> decide

theorem height_le (s : STMState) : height s ≤ 2 := by cases s <;> decide

/-- Decreases with every step but in the lost states at the end of the text. -/
def meas (len : Nat) (A : Cfg) : Nat :=
  32 * (len - A.src) + (if A.state = .EXIT then 0 else 32) + 8 * height A.state + phase A.tok.id

theorem meas_le (len : Nat) (A : Cfg) : meas len A < 32 * (len + 2) := by
  have h1 := height_le A.state
  have h2 := phase_le A.tok.id
  unfold meas
  split <;> omega

/-- Everything behind `len` is null. -/
def Ends (f : Nat → Byte) (len : Nat) : Prop := ∀ k, len ≤ k → f k = 0

theorem Ends.uasc {len k : Nat} (h : Ends f len) (hk : len ≤ k) : uasc e f k = 0 := by
  have h0 := h k hk
  have h1 := h (k + 1) (by omega)
  have h2 := h (k + 2) (by omega)
  have h3 := h (k + 3) (by omega)
  cases e <;> simp [Spec.uasc, Spec.uval, unit16, h0, h1, h2, h3]

theorem Ends.cls {len : Nat} {A : Cfg} (h : Ends f len) (hk : len ≤ A.src) : cls e f A = .EndOfText := by
  unfold Mach.cls; rw [h.uasc hk]; decide

theorem Ends.asc {len : Nat} {A : Cfg} (h : Ends f len) (hk : len ≤ A.src) : asc e f A = 0 := by
  unfold Mach.asc; rw [h.uasc hk]; rfl

theorem stm_fallback : ∀ s ∈ STMState.all, ∀ fb, (stm s).fallback = some fb →
    ((stm s).action = none ∧ height fb < height s) ∨
    (∃ op arg, (stm s).action = some (op, arg) ∧ arg ≠ .None ∧ stringDefs op = none) := by
  intro s hs fb h
  cases s <;> simp only [stm, Option.some.injEq, reduceCtorEq] at h <;> first
    | (left; subst h; exact ⟨rfl, by decide⟩)
    | (right; exact ⟨_, _, rfl, by decide, rfl⟩)

theorem stm_end : ∀ s ∈ STMState.all, ∀ ns, (stm s).next .EndOfText = some ns →
    (ns = .EXIT ∧ s ≠ .EXIT) ∨ (s ∈ lost ∧ ns ∈ lost) := by
  decide +kernel

theorem stm_lost : ∀ s ∈ lost, (stm s).action = none ∧ ∃ ns, (stm s).next .EndOfText = some ns ∧ ns ∈ lost := by
  decide +kernel

theorem stm_exit : (stm .EXIT).action = some (.Return, .Exit) ∧ (stm .EXIT).nofnext = 0 := by decide

theorem tok_end : ∀ op isTok, tokenDefs op = some isTok → isTok .EndOfText = false := by
  intro op isTok h
  cases op <;> simp only [tokenDefs, Option.some.injEq, reduceCtorEq] at h <;> subst h <;> decide

/-- Lost at the end of the text. -/
def Lost (len : Nat) (A : Cfg) : Prop := len ≤ A.src ∧ A.state ∈ lost

theorem Lost.step {len : Nat} {A : Cfg} (hf : Ends f len) (h : Lost len A) :
    ∃ B, step e f mask A = (none, B) ∧ Lost len B := by
  obtain ⟨h1, h2⟩ := h
  obtain ⟨h3, ns, h4, h5⟩ := stm_lost _ h2
  unfold Mach.step
  simp only [h3]
  unfold Mach.trans
  simp only [hf.cls h1, h4]
  refine ⟨_, rfl, ?_, h5⟩
  simp only [adv, idTo, tokTo]
  omega

theorem Lost.steps {len : Nat} (hf : Ends f len) (m : Nat) : ∀ {A : Cfg}, Lost len A →
    ∃ B, Steps e f mask m A B ∧ Lost len B := by
  induction m with
  | zero => intro A h; exact ⟨A, .refl A, h⟩
  | succ m ih =>
    intro A h
    obtain ⟨B, h1, h2⟩ := h.step (e := e) (mask := mask) hf
    obtain ⟨C, h3, h4⟩ := ih h2
    exact ⟨C, .cons h1 h3, h4⟩

/-- The machine does not return from a lost configuration. -/
theorem Lost.never {len : Nat} {A B : Cfg} {r : ElementType} {m : Nat} (hf : Ends f len)
    (h : Lost len A) : ¬ Fin e f mask m A r B := by
  intro hfin
  obtain ⟨C, h1, -⟩ := h.steps (e := e) (mask := mask) hf (m + 1)
  have := (hfin.split h1).1
  omega

theorem meas_adv {len : Nat} {A B : Cfg} (h : A.src < len) (h1 : A.src < B.src)
    (h2 : B.state = .EXIT ∨ A.state ≠ .EXIT) : meas len B < meas len A := by
  have h3 := height_le B.state
  have h4 := phase_le B.tok.id
  unfold meas
  rcases h2 with h2 | h2
  · rw [if_pos h2]; omega
  · rw [if_neg h2]
    split <;> omega

theorem meas_same {len : Nat} {A B : Cfg} (h1 : B.src = A.src) (h2 : B.state = A.state)
    (h3 : phase B.tok.id < phase A.tok.id) : meas len B < meas len A := by
  unfold meas
  rw [h1, h2]
  omega

theorem trans_meas {len : Nat} {A B : Cfg} {rt : ElementType} (hf : Ends f len)
    (hex : A.state ≠ .EXIT)
    (hfb : rt = .None → ∀ fb, (stm A.state).fallback = some fb → height fb < height A.state)
    (h : Mach.trans e f (stm A.state) rt A = (none, B)) :
    meas len B < meas len A ∨ Lost len B := by
  unfold Mach.trans at h
  simp only at h
  have hpos := ulen_pos e f A.src
  split at h
  · rename_i ns hns
    simp only [Prod.mk.injEq] at h
    obtain ⟨-, rfl⟩ := h
    by_cases hlt : A.src < len
    · left
      exact meas_adv hlt (by simp only [adv, idTo, tokTo]; omega) (.inr hex)
    · have hc := hf.cls (e := e) (A := A) (by omega)
      rw [hc] at hns
      rcases stm_end _ (STMState.mem_all _) ns hns with ⟨rfl, -⟩ | ⟨-, hl⟩
      · left
        unfold meas
        rw [if_neg hex]
        simp only [adv, idTo, tokTo, if_pos, height, phase]
        omega
      · right
        refine ⟨?_, hl⟩
        simp only [adv, idTo, tokTo]
        omega
  · split at h
    · rename_i fb hfb'
      have hrt : rt = .None := by
        apply Decidable.byContradiction
        intro hne
        simp [Scanner.loopEnd, hne] at h
      simp only [Prod.mk.injEq] at h
      obtain ⟨-, rfl⟩ := h
      have := hfb hrt fb hfb'
      left
      unfold meas
      rw [if_neg hex]
      have h1 : phase A.tok.id ≥ 1 := by cases A.tok.id <;> decide
      simp only [idTo, tokTo, phase]
      split <;> omega
    · split at h <;> cases h

theorem tokStep_meas {len : Nat} {A B : Cfg} {isTok : Cc → Bool} (hf : Ends f len)
    (hex : A.state ≠ .EXIT) (ht : isTok .EndOfText = false) (hd : A.tok.id ≠ .ParsingDone)
    (hbase : A.tok.base ≤ 16) (h : tokStep e f isTok A = (none, B)) : meas len B < meas len A := by
  have hpos := ulen_pos e f A.src
  have hadv : ∀ C : Cfg, B = adv e f C → C.src = A.src → C.state = A.state → A.src < len →
      meas len B < meas len A := by
    intro C h1 h2 h3 h4
    subst h1
    exact meas_adv h4 (by simp only [adv, h2]; omega) (.inr hex)
  have hlt0 : asc e f A ≠ 0 → A.src < len := by
    intro h
    apply Decidable.byContradiction
    intro hge
    exact h (hf.asc (by omega))
  have hltc : cls e f A ≠ .EndOfText → A.src < len := by
    intro h
    apply Decidable.byContradiction
    intro hge
    exact h (hf.cls (by omega))
  have hsame : B.src = A.src → B.state = A.state → phase B.tok.id < phase A.tok.id →
      meas len B < meas len A := by
    intro h1 h2 h3
    unfold meas
    rw [h1, h2]
    omega
  unfold tokStep at h
  cases hid : A.tok.id <;> simp only [hid] at h hsame hd
  · cases h; exact hsame rfl rfl (by simp [idTo, tokTo, phase])
  · exact absurd rfl hd
  · cases h
  · split at h <;> rename_i hc <;> cases h
    · exact hadv (idTo .ParsingNumericEntity A) rfl rfl rfl (hlt0 (by rw [hc]; decide))
    · exact hsame rfl rfl (by simp [idTo, tokTo, phase])
  · split at h <;> rename_i hc <;> cases h
    · exact hadv (tokTo (fun t => { t with id := .ParsingNumericBaseEntity, base := 16 }) A) rfl rfl rfl
        (hlt0 (by rw [hc]; decide))
    · exact hsame rfl rfl (by simp [tokTo, phase])
  · split at h
    · rename_i hc
      split at h <;> cases h
      · exact hsame rfl rfl (by simp [fallback, initTok, tokTo, phase, TokState.init])
      · exact hadv _ rfl rfl rfl (hlt0 (by rw [hc]; decide))
    · rename_i hc
      split at h
      · cases h
        exact hsame rfl rfl (by simp [fallback, initTok, tokTo, phase, TokState.init])
      · rename_i hb
        have h0 : A.src < len := by
          apply Decidable.byContradiction
          intro hge
          rw [hf.asc (by omega)] at hb
          have : hexVal 0 = 255 := rfl
          omega
        split at h <;> cases h
        · exact meas_adv h0 (by simp only [fallback, initTok, tokTo, pushes, adv, store]; omega) (.inr hex)
        · exact meas_adv h0 (by simp only [tokTo, adv, store]; omega) (.inr hex)
  · split at h
    · rename_i hc
      cases h
      exact hadv _ rfl rfl rfl (hltc (by rw [hc.2.2]; decide))
    · split at h
      · rename_i hc
        split at h <;> cases h
        exact hadv _ rfl rfl rfl (hlt0 (by rw [hc]; decide))
      · cases h
        exact hsame rfl rfl (by simp [fallback, initTok, tokTo, phase, TokState.init])
  · split at h
    · rename_i hc
      cases h
      refine hadv _ rfl ?_ ?_ (hltc ?_)
      · unfold charStep; split
        · rfl
        · split
          · split <;> rfl
          · rfl
      · unfold charStep; split
        · rfl
        · split
          · split <;> rfl
          · rfl
      · intro h; rw [h, ht] at hc; cases hc
    · split at h <;> cases h
      · rename_i hc
        exact hadv (idTo .ParsingEntity A) rfl rfl rfl (hltc (by rw [hc]; decide))
      · exact hsame rfl rfl (by simp [initTok, tokTo, phase, TokState.init])

theorem step_meas {len : Nat} {A B : Cfg} (hf : Ends f len) (hi : Inv mask A)
    (h : step e f mask A = (none, B)) : meas len B < meas len A ∨ Lost len B := by
  have hpos := ulen_pos e f A.src
  have hex : A.state ≠ .EXIT := by
    intro hs
    unfold step at h
    simp only [hs, stm_exit.1, stm_exit.2] at h
    simp [tokenDefs, stringDefs] at h
  unfold step at h
  simp only at h
  split at h
  · rename_i ha
    refine trans_meas hf hex (fun _ fb hfb => ?_) h
    rcases stm_fallback _ (STMState.mem_all _) fb hfb with h1 | ⟨op, arg, h1, -⟩
    · exact h1.2
    · rw [ha] at h1; cases h1
  · rename_i op arg ha
    have hfb : arg = .None → ∀ fb, (stm A.state).fallback = some fb → height fb < height A.state := by
      intro harg fb hfb
      rcases stm_fallback _ (STMState.mem_all _) fb hfb with h1 | ⟨op', arg', h1, h2, -⟩
      · exact h1.2
      · rw [ha] at h1; cases h1; exact absurd harg h2
    split at h
    · rename_i isTok hd
      split at h
      · exact trans_meas hf hex hfb h
      · rename_i hid
        split at h
        · exact .inl (tokStep_meas hf hex (tok_end _ _ hd) hid hi.base h)
        · split at h
          · rename_i hc
            cases h
            left
            refine meas_adv ?_ (by simp only [adv]; omega) (.inr hex)
            apply Decidable.byContradiction
            intro hge
            rw [hf.cls (by omega), tok_end _ _ hd] at hc
            simp at hc
          · exact trans_meas hf hex hfb h
    · rename_i hd
      split at h
      · rename_i str hstr
        have hfb' : ∀ fb, (stm A.state).fallback = some fb → height fb < height A.state := by
          intro fb hfb
          rcases stm_fallback _ (STMState.mem_all _) fb hfb with h1 | ⟨op', arg', h1, h2, h3⟩
          · exact h1.2
          · rw [ha] at h1; cases h1; rw [hstr] at h3; cases h3
        unfold keyStep at h
        simp only at h
        split at h
        · exact trans_meas hf hex (fun _ => hfb') h
        · rename_i hid
          have hph : 1 < phase A.tok.id := by
            cases hi : A.tok.id <;> simp [hi, phase] at hid ⊢
          split at h
          · cases h
            left
            split
            · exact meas_same rfl rfl hph
            · exact meas_same rfl rfl hph
          · rename_i c hc
            split at h <;> cases h
            rename_i ha'
            left
            refine meas_adv ?_ (by simp only [tokTo, adv]; omega) (.inr hex)
            apply Decidable.byContradiction
            intro hge
            rw [hf.asc (by omega)] at ha'
            subst ha'
            have : (0 : Nat) ∉ str := by
              cases op <;> simp only [stringDefs, Option.some.injEq, reduceCtorEq] at hstr <;>
                subst hstr <;> decide
            exact this (List.mem_of_getElem? hc)
      · split at h
        · cases h
        · exact trans_meas (A := { A with tokenpos := A.src, out := [] }) hf hex hfb h

theorem steps_inv {m : Nat} {A B : Cfg} (h : Steps e f mask m A B) (hi : Inv mask A) : Inv mask B := by
  induction h with
  | refl => exact hi
  | cons h1 _ ih => exact ih (step_inv hi h1)

/-- The machine returns, or gets lost, within a bounded number of steps. -/
theorem fin_or_lost {len : Nat} (hf : Ends f len) : ∀ (k : Nat) {A : Cfg}, Inv mask A → meas len A < k →
    (∃ m r B, m < k ∧ Fin e f mask m A r B) ∨ (∃ m B, m ≤ k ∧ Steps e f mask m A B ∧ Lost len B) := by
  intro k
  induction k with
  | zero => intro A _ h; omega
  | succ k ih =>
    intro A hi h
    generalize hs : step e f mask A = x
    obtain ⟨r, B⟩ := x
    cases r with
    | some r => exact .inl ⟨0, r, B, by omega, A, .refl A, hs⟩
    | none =>
      rcases step_meas hf hi hs with h1 | h1
      · rcases ih (step_inv hi hs) (by omega) with ⟨m, r, C, h2, h3⟩ | ⟨m, C, h2, h3, h4⟩
        · left
          have := h3.later (.one hs)
          exact ⟨1 + m, r, C, by omega, this⟩
        · exact .inr ⟨m + 1, C, by omega, .cons hs h3, h4⟩
      · exact .inr ⟨1, B, by omega, .one hs, h1⟩

end Mach

end TW
