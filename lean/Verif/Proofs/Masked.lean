import Verif.Proofs.AcceptRun
import Verif.Proofs.Segs

/-!
# The text that is left when an item is not asked for
-/

namespace TW.Mach

open Spec Scanner

variable {e : Enc} {f : Nat → Byte} {mask : Nat}

/-- The state prints: it reads a token that is asked for or the beginning of a header. -/
def Prints (mask : Nat) (q : STMState) : Prop :=
  ∃ op arg, (stm q).action = some (op, arg) ∧ ((tokenDefs op ≠ none ∧ mask.testBit arg.toNat = true) ∨ op = .ExpectIdentifierXML)

theorem trans_silent {A B : Cfg} {sd : Elem} {rt : ElementType} (h : Mach.trans e f sd rt A = (none, B)) : rt = .None ∧ B.out = A.out ∧ B.tokenpos = A.tokenpos := by
  obtain ⟨-, h2, h3, h4⟩ := trans_ret h
  refine ⟨?_, h2, h3⟩
  rcases h4 with h4 | h4
  · cases h4
  · unfold Scanner.loopEnd at h4
    split at h4
    · assumption
    · cases h4

theorem xml_arg : ∀ q ∈ STMState.all, ∀ op arg, (stm q).action = some (op, arg) → tokenDefs op = none → stringDefs op = none → arg ≠ .None := by
  intro q _ op arg h h1 h2
  cases q <;> simp only [stm, Option.some.injEq, Prod.mk.injEq, reduceCtorEq] at h <;> obtain ⟨rfl, rfl⟩ := h <;> first | (intro hh; cases hh; done) | (cases h1; done) | (cases h2; done)

/-- A step that returns nothing prints nothing, or stays in a state that prints. -/
theorem step_prints {A B : Cfg} (hi : Inv mask A) (h : step e f mask A = (none, B)) (hp : ¬ Prints mask B.state) :
    ¬ Prints mask A.state ∧ B.out = A.out ∧ B.tokenpos = A.tokenpos := by
  unfold step at h
  simp only at h
  split at h
  · rename_i ha
    refine ⟨?_, (trans_silent h).2⟩
    rintro ⟨op, arg, h1, -⟩
    rw [ha] at h1; cases h1
  · rename_i op arg ha
    split at h
    · rename_i isTok ht
      have harg := tok_arg _ _ _ ha (by rw [ht]; nofun)
      split at h
      · exact absurd (trans_silent h).1 harg
      · rename_i hid
        split at h
        · rename_i hb
          have := (tokStep_reads ht hi.base hid h).1
          exact absurd ⟨op, arg, by rw [this]; exact ha, .inl ⟨by rw [ht]; nofun, hb⟩⟩ hp
        · rename_i hb
          split at h
          · cases h
            exact ⟨hp, rfl, rfl⟩
          · exact absurd (trans_silent h).1 harg
    · rename_i ht
      split at h
      · rename_i str hstr
        by_cases hx : op = .ExpectIdentifierXML
        · unfold keyStep at h
          simp only at h
          split at h
          · have := (trans_silent h).1
            simp at this
          · split at h
            · cases h
              exact absurd ⟨op, arg, ha, .inr hx⟩ hp
            · split at h
              · cases h
                exact absurd ⟨op, arg, ha, .inr hx⟩ hp
              · cases h
        · have hn : ¬ Prints mask A.state := by
            rintro ⟨op', arg', h1, h2⟩
            rw [ha] at h1; cases h1
            rcases h2 with ⟨h2, -⟩ | h2
            · exact h2 ht
            · exact hx h2
          refine ⟨hn, ?_⟩
          unfold keyStep at h
          simp only at h
          split at h
          · exact (trans_silent h).2
          · split at h
            · cases h
              exact ⟨rfl, rfl⟩
            · split at h
              · cases h
                exact ⟨rfl, rfl⟩
              · cases h
      · rename_i hstr
        have harg := xml_arg _ (STMState.mem_all _) _ _ ha ht hstr
        split at h
        · cases h
        · exact absurd (trans_silent h).1 harg

theorem steps_prints {m : Nat} {A B : Cfg} (h : Steps e f mask m A B) : Inv mask A → ¬ Prints mask B.state →
    B.out = A.out ∧ B.tokenpos = A.tokenpos ∧ ¬ Prints mask A.state := by
  induction h with
  | refl => intro _ hp; exact ⟨rfl, rfl, hp⟩
  | cons h1 _ ih =>
    intro hi hp
    obtain ⟨k1, k2, k3⟩ := ih (step_inv hi h1) hp
    obtain ⟨k4, k5, k6⟩ := step_prints hi h1 k3
    exact ⟨k1.trans k5, k2.trans k6, k4⟩

/-- The step that gives an item that is not asked for. -/
theorem step_unasked {A B : Cfg} {r : ElementType} (h : step e f mask A = (some r, B)) (hk : kindsOf r ≠ []) (hm : mask.testBit r.toNat = false) :
    ¬ Prints mask A.state ∧ B.out = A.out ∧ B.tokenpos = A.tokenpos := by
  have hre : r ≠ .ErrorOccurred := by rintro rfl; exact hk rfl
  have htr : ∀ {sd : Elem} {rt : ElementType} {A' : Cfg}, Mach.trans e f sd rt A' = (some r, B) → rt = r ∧ B.out = A'.out ∧ B.tokenpos = A'.tokenpos := by
    intro sd rt A' h
    obtain ⟨-, h2, h3, h4⟩ := trans_ret h
    refine ⟨?_, h2, h3⟩
    rcases h4 with h4 | h4
    · exact absurd (Option.some.inj h4) hre
    · unfold Scanner.loopEnd at h4
      split at h4
      · cases h4
      · exact (Option.some.inj h4).symm
  unfold step at h
  simp only at h
  split at h
  · rename_i ha
    obtain ⟨rfl, -⟩ := htr h
    exact absurd rfl hk
  · rename_i op arg ha
    split at h
    · rename_i isTok ht
      have hno : arg = r → ¬ Prints mask A.state := by
        rintro rfl ⟨op', arg', h1, h2⟩
        rw [ha] at h1; cases h1
        rcases h2 with ⟨-, h2⟩ | h2
        · rw [hm] at h2; cases h2
        · rw [h2] at ht; cases ht
      split at h
      · obtain ⟨h1, h2⟩ := htr h
        exact ⟨hno h1, h2⟩
      · split at h
        · exfalso
          unfold tokStep at h
          simp only at h
          repeat' split at h
          all_goals first
            | (cases h; done)
            | (cases h; exact hre rfl)
        · split at h
          · cases h
          · obtain ⟨h1, h2⟩ := htr h
            exact ⟨hno h1, h2⟩
    · rename_i ht
      split at h
      · exfalso
        unfold keyStep at h
        simp only at h
        split at h
        · have := (htr h).1
          split at this <;> (subst this; exact hk rfl)
        · split at h
          · cases h
          · split at h
            · cases h
            · cases h; exact hre rfl
      · rename_i hstr
        have harg : arg = r := by
          split at h
          · cases h; rfl
          · exact (htr h).1
        exfalso
        subst harg
        exact kinds_tok _ (STMState.mem_all _) _ _ ha hk ht

/-- A call that gives an item that is not asked for prints nothing. -/
theorem fin_unasked {m : Nat} {A B : Cfg} {r : ElementType} (hi : Inv mask A) (h : Fin e f mask m A r B) (hk : kindsOf r ≠ [])
    (hm : mask.testBit r.toNat = false) : B.out = A.out ∧ B.tokenpos = A.tokenpos := by
  obtain ⟨C, h1, h2⟩ := h
  obtain ⟨k1, k2, k3⟩ := step_unasked h2 hk hm
  obtain ⟨k4, k5, -⟩ := steps_prints h1 hi k1
  exact ⟨k2.trans k4, k3.trans k5⟩

theorem clr_out (c : Bool) (B : Cfg) : (clr c B).out = B.out ∧ (clr c B).tokenpos = B.tokenpos := by
  cases c <;> exact ⟨rfl, rfl⟩

theorem runs_unasked {calls : List (Nat × Bool)} {A : Cfg} {os : List (ElementType × Cfg)} (h : Runs e f calls A os) : Inv0 A →
    ∀ i r B mask c, os[i]? = some (r, B) → calls[i]? = some (mask, c) → kindsOf r ≠ [] → mask.testBit r.toNat = false →
    (i = 0 ∧ B.out = A.out ∧ B.tokenpos = A.tokenpos) ∨ ∃ j r' B', i = j + 1 ∧ os[j]? = some (r', B') ∧ B.out = B'.out ∧ B.tokenpos = B'.tokenpos := by
  induction h with
  | nil => intro _ i r B mask c h; simp at h
  | @cons mask0 c0 cs A B0 m r0 os h1 _ ih =>
    intro hi i r B mask c ho hc hk hm
    cases i with
    | zero =>
      simp only [List.getElem?_cons_zero, Option.some.injEq, Prod.mk.injEq] at ho hc
      obtain ⟨rfl, rfl⟩ := ho
      obtain ⟨rfl, rfl⟩ := hc
      exact .inl ⟨rfl, fin_unasked (hi.inv _) h1 hk hm⟩
    | succ i =>
      simp only [List.getElem?_cons_succ] at ho hc
      obtain ⟨C, s1, s2⟩ := h1
      have hi' := (step_ret (steps_inv s1 (hi.inv _)) s2).clr c0
      refine .inr ?_
      rcases ih hi' i r B mask c ho hc hk hm with ⟨rfl, k1, k2⟩ | ⟨j, r', B', rfl, k1, k2, k3⟩
      · rw [(clr_out c0 B0).1] at k1
        rw [(clr_out c0 B0).2] at k2
        exact ⟨0, r0, B0, rfl, rfl, k1, k2⟩
      · exact ⟨j + 1, r', B', rfl, k1, k2, k3⟩

end TW.Mach
