import Verif.Proofs.MachineShape
import Verif.Proofs.MachineTerm

/-!
# The number of items
-/

namespace TW

open Spec

namespace Mach

variable {e : Enc} {f : Nat → Byte} {mask : Nat}

/-- How many more items than bytes there can be from a state on. -/
def weight : STMState → Nat
  | .XTAGDONE | .ENTITYSL | .ENTITY | .ENTITYE | .ENTITYID | .ENTITYSQ | .ENTITYDQ => 2
  | .STARTTAG | .XTAG | .XTAGEND | .XTAGAISK | .XTAGANAM | .XTAGAVSK | .XTAGAVID | .DOCSTART | .CONTENT | .TOKEN | .SEEKTOK | .XMLTAG
  | .OPENTAG | .CLOSETAG | .TAGAISK | .TAGANAM | .TAGAVSK | .TAGAVID | .TAGCLIM | .ENTITYLC => 1
  | _ => 0

/-- Decreases with every item that is neither the end nor an error. -/
def pot (len : Nat) (A : Cfg) : Nat := (len - A.src) + weight A.state

/-- A token ends at a character that does not belong to it. -/
def Ended (e : Enc) (f : Nat → Byte) (A : Cfg) : Prop :=
  A.tok.id = .ParsingDone → ∀ op arg isTok, (stm A.state).action = some (op, arg) → tokenDefs op = some isTok →
    isTok (cls e f A) = false ∧ cls e f A ≠ .Amp

theorem stm_next_weight : ∀ s ∈ STMState.all, ∀ c ns, (stm s).next c = some ns →
    weight ns ≤ weight s + 1 ∧ ((stm s).action ≠ none → weight ns ≤ weight s) := by
  intro s hs c ns h
  have : ∀ s ∈ STMState.all, ∀ c ∈ Cc.all, ∀ ns, (stm s).next c = some ns →
      weight ns ≤ weight s + 1 ∧ ((stm s).action ≠ none → weight ns ≤ weight s) := by decide +kernel
  exact this s hs c (by cases c <;> decide) ns h

theorem stm_end_weight : ∀ s ∈ STMState.all, (stm s).next .EndOfText = some .EXIT → (stm s).action ≠ none → 1 ≤ weight s := by
  decide +kernel

theorem stm_fallback_weight : ∀ s ∈ STMState.all, ∀ fb, (stm s).fallback = some fb → weight fb ≤ weight s := by
  decide +kernel

theorem stm_quiet : ∀ s ∈ STMState.all, ∀ op arg, (stm s).action = some (op, arg) → tokenDefs op = none → stringDefs op = none →
    s ≠ .EXIT → ((stm s).nofnext = 0 → (stm s).fallback ≠ none ∧ ∀ fb, (stm s).fallback = some fb → weight fb < weight s) ∧
      ((stm s).nofnext ≠ 0 → (stm s).fallback = none) := by
  intro s hs op arg h1 h2 h3 h4
  cases s <;> simp only [stm, Option.some.injEq, Prod.mk.injEq, reduceCtorEq] at h1 <;> obtain ⟨rfl, rfl⟩ := h1 <;>
    first
    | (exfalso; revert h2; simp [tokenDefs]; done)
    | (exfalso; revert h3; simp [stringDefs]; done)
    | (exact absurd rfl h4)
    | decide +kernel

theorem stm_token : ∀ s ∈ STMState.all, ∀ op arg isTok, (stm s).action = some (op, arg) → tokenDefs op = some isTok →
    (stm s).fallback ≠ none → ∀ c, isTok c = false → c ≠ .Amp → (stm s).next c ≠ none := by
  intro s hs op arg isTok h1 h2 h3 c
  cases s <;> simp only [stm, Option.some.injEq, Prod.mk.injEq, reduceCtorEq, ne_eq, not_true_eq_false] at h1 h3 <;>
    obtain ⟨rfl, rfl⟩ := h1 <;> simp only [tokenDefs, Option.some.injEq, reduceCtorEq] at h2 <;> subst h2 <;>
    revert c <;> intro c <;> cases c <;> decide

theorem stm_return : ∀ s ∈ STMState.all, ∀ op arg, (stm s).action = some (op, arg) → tokenDefs op = none → stringDefs op = none →
    (stm s).nofnext = 0 → ∀ fb, (stm s).fallback = some fb → (stm fb).action = none := by
  intro s hs op arg h1 h2 h3 h4 fb h5
  cases s <;> simp only [stm, Option.some.injEq, reduceCtorEq] at h5 <;> subst h5 <;> first
    | rfl
    | (simp [stm] at h4)

theorem trans_pot {len : Nat} {A B : Cfg} {rt : ElementType} {r : Option ElementType} (hf : Ends f len)
    (h : Mach.trans e f (stm A.state) rt A = (r, B)) :
    r = some .ErrorOccurred ∨ Lost len A ∨ (pot len B ≤ pot len A ∧ ((stm A.state).action ≠ none → pot len B < pot len A)) ∨
    ((stm A.state).next (cls e f A) = none ∧ (stm A.state).fallback ≠ none ∧ pot len B ≤ pot len A) := by
  have hpos := ulen_pos e f A.src
  unfold Mach.trans at h
  simp only at h
  split at h
  · rename_i ns hns
    simp only [Prod.mk.injEq] at h
    obtain ⟨-, rfl⟩ := h
    by_cases hlt : A.src < len
    · obtain ⟨h1, h2⟩ := stm_next_weight _ (STMState.mem_all _) _ ns hns
      right; right; left
      unfold pot
      simp only [adv, idTo, tokTo]
      refine ⟨by omega, fun h => ?_⟩
      have := h2 h
      omega
    · have hc := hf.cls (e := e) (A := A) (by omega)
      rw [hc] at hns
      rcases stm_end _ (STMState.mem_all _) ns hns with ⟨rfl, -⟩ | ⟨hl, -⟩
      · right; right; left
        have h1 : weight .EXIT = 0 := rfl
        unfold pot
        simp only [adv, idTo, tokTo, h1]
        refine ⟨by omega, fun h => ?_⟩
        have := stm_end_weight _ (STMState.mem_all _) hns h
        omega
      · exact .inr (.inl ⟨by omega, hl⟩)
  · rename_i hn
    split at h
    · rename_i fb hfb
      simp only [Prod.mk.injEq] at h
      obtain ⟨-, rfl⟩ := h
      have h1 := stm_fallback_weight _ (STMState.mem_all _) fb hfb
      refine .inr (.inr (.inr ⟨hn, by rw [hfb]; simp, ?_⟩))
      unfold pot
      simp only [idTo, tokTo]
      omega
    · split at h <;> cases h <;> exact .inl rfl

/-- A step without an item does not increase the potential, a step with one decreases it. -/
theorem step_pot {len : Nat} {A B : Cfg} {r : Option ElementType} (hf : Ends f len) (hq : Ended e f A)
    (h : step e f mask A = (r, B)) :
    r = some .ErrorOccurred ∨ r = some .Exit ∨ Lost len A ∨ pot len B < pot len A ∨ (r = none ∧ pot len B ≤ pot len A) := by
  by_cases hex : A.state = .EXIT
  · right; left
    unfold step at h
    simp only [hex, stm_exit.1, stm_exit.2] at h
    simp [tokenDefs, stringDefs] at h
    exact h.1.symm
  have hsame : ∀ {C : Cfg}, C.src = A.src → C.state = A.state → pot len C ≤ pot len A := by
    intro C h1 h2; unfold pot; rw [h1, h2]; exact Nat.le_refl _
  have hadv : ∀ {C : Cfg}, A.src ≤ C.src → C.state = A.state → pot len C ≤ pot len A := by
    intro C h1 h2; unfold pot; rw [h2]; omega
  unfold step at h
  simp only at h
  split at h
  · rename_i ha
    rcases trans_pot hf h with h1 | h1 | ⟨h1, -⟩ | ⟨-, -, h1⟩
    · exact .inl h1
    · exact .inr (.inr (.inl h1))
    all_goals
      unfold Mach.trans at h
      simp only at h
      repeat' split at h
      all_goals cases h
      all_goals first
        | exact .inl rfl
        | exact .inr (.inr (.inr (.inr ⟨rfl, h1⟩)))
  · rename_i op arg ha
    have htr : ∀ {rt : ElementType} {r : Option ElementType}, Mach.trans e f (stm A.state) rt A = (r, B) →
        ((stm A.state).next (cls e f A) = none → (stm A.state).fallback ≠ none → r = none) →
        r = some .ErrorOccurred ∨ r = some .Exit ∨ Lost len A ∨ pot len B < pot len A ∨ (r = none ∧ pot len B ≤ pot len A) := by
      intro rt r h h'
      rcases trans_pot hf h with h1 | h1 | ⟨-, h1⟩ | ⟨h1, h2, h3⟩
      · exact .inl h1
      · exact .inr (.inr (.inl h1))
      · exact .inr (.inr (.inr (.inl (h1 (by rw [ha]; simp)))))
      · exact .inr (.inr (.inr (.inr ⟨h' h1 h2, h3⟩)))
    split at h
    · rename_i isTok hd
      split at h
      · rename_i hid
        obtain ⟨h1, h2⟩ := hq hid _ _ _ ha hd
        exact htr h (fun h3 h4 => absurd h3 (stm_token _ (STMState.mem_all _) _ _ _ ha hd h4 _ h1 h2))
      · rename_i hid
        split at h
        · obtain ⟨h1, h2⟩ := tokStep_shape h
          have h3 : pot len B ≤ pot len A := hadv (by omega) h1
          cases r with
          | none => exact .inr (.inr (.inr (.inr ⟨rfl, h3⟩)))
          | some r =>
            left
            unfold tokStep at h
            simp only at h
            repeat' split at h
            all_goals first
              | cases h; done
              | (simp only [Prod.mk.injEq] at h; exact h.1.symm)
        · split at h
          · cases h
            exact .inr (.inr (.inr (.inr ⟨rfl, hadv (by simp only [adv]; omega) rfl⟩)))
          · rename_i hc
            simp only [Bool.or_eq_true, decide_eq_true_eq, not_or, Bool.not_eq_true] at hc
            exact htr h (fun h3 h4 => absurd h3 (stm_token _ (STMState.mem_all _) _ _ _ ha hd h4 _ hc.1 hc.2))
    · rename_i hd
      split at h
      · rename_i str hstr
        have hfb : (stm A.state).fallback = none := by
          cases hfb : (stm A.state).fallback with
          | none => rfl
          | some fb =>
            rcases stm_fallback _ (STMState.mem_all _) fb hfb with h1 | ⟨op', arg', h1, h2, h3⟩
            · rw [ha] at h1; cases h1.1
            · rw [ha] at h1; cases h1; rw [hstr] at h3; cases h3
        unfold keyStep at h
        simp only at h
        split at h
        · exact htr h (fun _ h4 => absurd hfb h4)
        · split at h
          · cases h
            refine .inr (.inr (.inr (.inr ⟨rfl, ?_⟩)))
            split <;> exact hsame rfl rfl
          · split at h <;> cases h
            · exact .inr (.inr (.inr (.inr ⟨rfl, hadv (by simp only [tokTo, adv]; omega) rfl⟩)))
            · exact .inl rfl
      · rename_i hs
        obtain ⟨h1, h2⟩ := stm_quiet _ (STMState.mem_all _) _ _ ha hd hs hex
        split at h
        · rename_i hn
          obtain ⟨h4, h3⟩ := h1 hn
          split at h
          · rename_i fb hfb
            cases h
            have h5 := h3 fb hfb
            right; right; right; left
            unfold pot
            simp only
            omega
          · rename_i hfb; exact absurd hfb h4
        · rename_i hn
          have h3 := h2 hn
          rcases trans_pot (A := { A with tokenpos := A.src, out := [] }) hf h with h4 | h4 | ⟨-, h4⟩ | ⟨-, h4, -⟩
          · exact .inl h4
          · exact .inr (.inr (.inl h4))
          · exact .inr (.inr (.inr (.inl (h4 (by simp [ha])))))
          · exact absurd h3 h4

theorem trans_ended {A B : Cfg} {sd : Elem} {rt : ElementType} {r : Option ElementType}
    (h : Mach.trans e f sd rt A = (r, B)) : B.tok.id = .Start := by
  unfold Mach.trans at h
  simp only at h
  repeat' split at h
  all_goals (simp only [Prod.mk.injEq] at h; obtain ⟨-, rfl⟩ := h; rfl)

theorem step_ended {A B : Cfg} {r : Option ElementType} (h : step e f mask A = (r, B)) : Ended e f B := by
  have hno : B.tok.id ≠ .ParsingDone → Ended e f B := fun h h' => absurd h' h
  have htr : ∀ {C : Cfg} {sd : Elem} {rt : ElementType} {r : Option ElementType}, Mach.trans e f sd rt C = (r, B) → Ended e f B :=
    fun h => hno (by rw [trans_ended h]; decide)
  unfold step at h
  simp only at h
  split at h
  · exact htr h
  · rename_i op arg ha
    split at h
    · rename_i isTok hd
      split at h
      · exact htr h
      · rename_i hid
        split at h
        · have hfbk : ∀ C : Cfg, (fallback C).tok.id = .ParsingToken := fun _ => rfl
          unfold tokStep at h
          cases hi : A.tok.id <;> simp only [hi] at h
          · cases h; exact hno (by simp [idTo, tokTo])
          · exact absurd hi hid
          · cases h; exact hno (by simp [initTok, tokTo, TokState.init])
          all_goals repeat' split at h
          all_goals cases h
          all_goals first
            | (refine hno ?_
               simp [fallback, initTok, idTo, tokTo, TokState.init, adv, store, pushes, hi]; done)
            | (refine hno ?_
               obtain ⟨o, b, ho⟩ := charStep_eq (e := e) (f := f) A
               rw [ho]
               simp [adv, hi])
            | skip
          rename_i h1 h2
          intro _ op' arg' isTok' h3 h4
          have h5 : (stm A.state).action = some (op', arg') := h3
          rw [ha] at h5; cases h5; rw [hd] at h4; cases h4
          exact ⟨Bool.eq_false_iff.mpr h1, h2⟩
        · split at h
          · cases h; exact hno hid
          · exact htr h
    · rename_i hd
      split at h
      · rename_i str hstr
        have hkey : B.state = A.state → Ended e f B := by
          intro h1 _ op' arg' isTok' h2 h3
          rw [h1, ha] at h2; cases h2; rw [hd] at h3; cases h3
        unfold keyStep at h
        simp only at h
        split at h
        · exact htr h
        · split at h
          · cases h
            refine hkey ?_
            split <;> rfl
          · split at h <;> cases h <;> exact hkey rfl
      · split at h
        · rename_i hs hn
          split at h
          · rename_i fb hfb
            cases h
            intro _ op' arg' isTok' h1 h2
            have := stm_return _ (STMState.mem_all _) _ _ ha hd hs hn fb hfb
            simp only [this] at h1
            cases h1
          · cases h
            intro _ op' arg' isTok' h1 h2
            simp only [ha] at h1
            cases h1; rw [hd] at h2; cases h2
        · exact htr h

theorem steps_pot {len m : Nat} {A B : Cfg} (hf : Ends f len) (h : Steps e f mask m A B) (hq : Ended e f A) :
    Ended e f B ∧ (pot len B ≤ pot len A ∨ ∃ m' C, Steps e f mask m' A C ∧ Lost len C) := by
  induction h with
  | refl A => exact ⟨hq, .inl (Nat.le_refl _)⟩
  | cons h1 _ ih =>
    obtain ⟨h2, h3⟩ := ih (step_ended h1)
    refine ⟨h2, ?_⟩
    rcases step_pot hf hq h1 with h4 | h4 | h4 | h4 | h4
    · cases h4
    · cases h4
    · exact .inr ⟨0, _, .refl _, h4⟩
    · rcases h3 with h3 | ⟨m', C, h3, h5⟩
      · exact .inl (by omega)
      · exact .inr ⟨_, C, .cons h1 h3, h5⟩
    · rcases h3 with h3 | ⟨m', C, h3, h5⟩
      · exact .inl (by omega)
      · exact .inr ⟨_, C, .cons h1 h3, h5⟩

/-- A run that reaches a lost configuration does not return. -/
theorem no_fin_of_lost {len m m' : Nat} {A B C : Cfg} {r : ElementType} (hf : Ends f len) (h : Steps e f mask m' A C)
    (hl : Lost len C) : ¬ Fin e f mask m A r B := by
  intro hfin
  obtain ⟨D, h1, -⟩ := hl.steps (e := e) (mask := mask) hf (m + 1)
  have := (hfin.split (h.trans h1)).1
  omega

theorem fin_pot {len m : Nat} {A B : Cfg} {r : ElementType} (hf : Ends f len) (hq : Ended e f A) (h : Fin e f mask m A r B)
    (h1 : r ≠ .ErrorOccurred) (h2 : r ≠ .Exit) : pot len B < pot len A ∧ Ended e f B := by
  obtain ⟨A1, h3, h4⟩ := id h
  obtain ⟨h5, h6⟩ := steps_pot hf h3 hq
  refine ⟨?_, step_ended h4⟩
  have h7 : pot len A1 ≤ pot len A := by
    rcases h6 with h6 | ⟨m', C, h6, h7⟩
    · exact h6
    · exact absurd h (no_fin_of_lost hf h6 h7)
  rcases step_pot hf h5 h4 with h8 | h8 | h8 | h8 | h8
  · cases h8; exact absurd rfl h1
  · cases h8; exact absurd rfl h2
  · exact absurd h (no_fin_of_lost hf h3 h8)
  · omega
  · cases h8.1

theorem runs_pot {len : Nat} {calls : List (Nat × Bool)} {A : Cfg} {os : List (ElementType × Cfg)} (hf : Ends f len)
    (h : Runs e f calls A os) (hq : Ended e f A) (hno : ∀ o ∈ os, o.1 ≠ .ErrorOccurred ∧ o.1 ≠ .Exit) : os.length ≤ pot len A := by
  induction h with
  | nil => simp
  | cons h1 _ ih =>
    rename_i mask c cs A B m r os h2
    obtain ⟨h3, h4⟩ := hno _ (List.mem_cons_self ..)
    obtain ⟨h5, h6⟩ := fin_pot hf hq h1 h3 h4
    have h7 : pot len (clr c B) = pot len B := by cases c <;> rfl
    have h8 : Ended e f (clr c B) := by cases c <;> exact h6
    have := ih h8 (fun o ho => hno o (List.mem_cons_of_mem _ ho))
    simp only [List.length_cons]
    omega

end Mach
end TW
