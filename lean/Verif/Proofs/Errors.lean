import Verif.Proofs.Reach

/-!
# Sessions after an error
-/

namespace TW

open Spec

namespace Mach

variable {e : Enc} {f : Nat → Byte} {mask : Nat}

/-- An error leaves the state and the position as they are. -/
theorem step_error {A B : Cfg} (h : step e f mask A = (some .ErrorOccurred, B)) :
    B.state = A.state ∧ B.src = A.src ∧ A.state ≠ .EXIT := by
  have hx : A.state ≠ .EXIT := by
    intro hx
    unfold step at h
    simp only [hx, stm_exit.1, stm_exit.2, tokenDefs, stringDefs, if_pos] at h
    cases h
  have ht : ∀ {rt : ElementType}, rt ≠ .ErrorOccurred →
      Mach.trans e f (stm A.state) rt A = (some .ErrorOccurred, B) → B.state = A.state ∧ B.src = A.src := by
    intro rt hrt h
    obtain ⟨-, -, rfl⟩ := trans_miss hrt h
    exact ⟨rfl, rfl⟩
  suffices B.state = A.state ∧ B.src = A.src from ⟨this.1, this.2, hx⟩
  unfold step at h
  simp only at h
  split at h
  · exact ht (by decide) h
  · rename_i op arg ha
    have harg := stm_args _ (STMState.mem_all _) op arg ha
    split at h
    · split at h
      · exact ht harg h
      · split at h
        · unfold tokStep at h
          simp only at h
          repeat' split at h
          all_goals first
            | (simp only [Prod.mk.injEq, reduceCtorEq, false_and] at h; done)
            | (simp only [Prod.mk.injEq] at h; obtain ⟨-, rfl⟩ := h; exact ⟨rfl, rfl⟩)
        · split at h
          · cases h
          · exact ht harg h
    · split at h
      · unfold keyStep at h
        simp only at h
        split at h
        · exact ht (by split <;> decide) h
        · split at h
          · cases h
          · split at h
            · cases h
            · cases h; exact ⟨rfl, rfl⟩
      · split at h
        · split at h <;> cases h <;> exact absurd rfl harg
        · obtain ⟨-, -, rfl⟩ := trans_miss (A := { A with tokenpos := A.src, out := [] }) harg h
          exact ⟨rfl, rfl⟩

theorem Stuck.clr {A : Cfg} {er : Err} (h : Stuck e f er A) (c : Bool) : Stuck e f er (clr c A) := by
  unfold Mach.clr
  split
  · exact ⟨h.id, h.next, h.fallback, h.error, h.tok⟩
  · exact h

/-- All further calls report the error. -/
theorem Stuck.runs {er : Err} (calls : List (Nat × Bool)) : ∀ {A : Cfg}, Stuck e f er A → A.state ≠ .EXIT →
    (∀ str op, ¬ Keys A.state str op) → ∃ os, Runs e f calls A os ∧ os.length = calls.length ∧
      ∀ x ∈ os, x.1 = .ErrorOccurred ∧ x.2.error = er ∧ x.2.src = A.src := by
  induction calls with
  | nil => intro A _ _ _; exact ⟨[], .nil A, rfl, fun x hx => nomatch hx⟩
  | cons mc cs ih =>
    obtain ⟨mask, c⟩ := mc
    intro A h hx hk
    obtain ⟨m, B, h1, h2, h3, h4, h5, h6⟩ := h.again hx hk mask
    have hs : (Mach.clr c B).state = A.state ∧ (Mach.clr c B).src = A.src := by
      unfold Mach.clr; split <;> exact ⟨h4, h3⟩
    obtain ⟨os, g1, g2, g3⟩ := ih (h6.clr c) (by rw [hs.1]; exact hx) (by rw [hs.1]; exact hk)
    refine ⟨(.ErrorOccurred, B) :: os, .cons h2 g1, by simp [g2], ?_⟩
    intro x hx
    rcases List.mem_cons.1 hx with rfl | hx
    · exact ⟨rfl, h5, h3⟩
    · obtain ⟨k1, k2, k3⟩ := g3 x hx
      exact ⟨k1, k2, by rw [k3]; exact hs.2⟩

/-- The states that expect a key word. -/
theorem keys_states {st : STMState} (h1 : st ≠ .XTAG) (h2 : st ≠ .CDATA) (str : List Byte) (op : STMAction) :
    ¬ Keys st str op := by
  rintro ⟨arg, g1, g2, g3⟩
  cases st <;> simp only [stm, Option.some.injEq, Prod.mk.injEq, reduceCtorEq] at g1 <;>
    first
      | exact h1 rfl
      | exact h2 rfl
      | (obtain ⟨rfl, rfl⟩ := g1; simp [stringDefs, tokenDefs] at g2 g3)

theorem Reach.noInternal {A : Cfg} {output : Enc} {em : Option (List (Nat × UChar))} {addr : Nat}
    (h : Reach e f (Cfg.new output em addr) A) : A.error ≠ .ErrInternal :=
  (h.keepsInv (P := fun A => A.error ≠ .ErrInternal) (fun _ _ _ _ hi h hs => step_internal hi h hs)
    (fun c A h => by unfold Mach.clr; split <;> simp_all) (.new _ _ _) (by simp [Cfg.new])).2

end Mach

open Mach

variable {ι : Type} [Iter ι] {f : Nat → Byte} {S : Source ι f} {e : Enc}

theorem reached_intro {ρ : Type} [Reader ρ] {s : Scanner ρ} {n : Nat} {sp : Bool} {calls : List (Nat × Bool)}
    {obs : List Obs} (h : (Scanner.session n sp calls s).1 = .ok obs) :
    Scanner.Reached s (Scanner.session n sp calls s).2 := by
  refine ⟨n, sp, calls, obs, ?_⟩
  generalize Scanner.session n sp calls s = x at h
  obtain ⟨x, s'⟩ := x
  cases h
  rfl

/-- `session_runs` with a bound on the fuel. -/
theorem session_runs_bound {sp : Bool} (hS : S.Total) (hw : sp = true → S.wrap) {k : Nat} {P : Cfg → Prop}
    (hk : ∀ mask A, P A → ∃ m r B, m < k ∧ Fin e f mask m A r B ∧ ∀ c, P (Mach.clr c B))
    (cs : List (Nat × Bool)) : ∀ {A : Cfg} {os : List (ElementType × Cfg)} {n : Nat}, P A → k ≤ n →
    Runs e f cs A os → ∀ s, SRel0 S e s A →
      ∃ s', Scanner.session n sp cs s = (.ok (os.map (Mach.obs sp)), s') ∧
        ∃ A', SRel0 S e s' A' ∧ Reach e f A A' ∧ P A' := by
  induction cs with
  | nil => intro A os n hP _ hr s h; cases hr; exact ⟨s, rfl, A, h, .refl, hP⟩
  | cons mc cs ih =>
    obtain ⟨mask, c⟩ := mc
    intro A os n hP hn hr s h
    cases hr with
    | @cons _ _ _ _ B m r os h1 h2 =>
      obtain ⟨m', r', B', g1, g2, g3⟩ := hk mask A hP
      obtain ⟨rfl, rfl, rfl⟩ := h1.det g2
      obtain ⟨s1, h3, h4⟩ := nextItem_fin (n := n) hS (h.rel mask) h1 (by omega)
      obtain ⟨s2, h5, h6⟩ := h4.clr c
      obtain ⟨s3, h7, A', h8, h9, h10⟩ := ih (g3 c) hn h2 s2 h6
      refine ⟨s3, ?_, A', h8, (Reach.call .refl h1).trans h9, h10⟩
      unfold Scanner.session
      rw [M.bind_ok h3, M.bind_ok (M.get_run _), M.bind_ok h5, M.bind_ok h7, h4.observe hw]
      rfl

end TW
