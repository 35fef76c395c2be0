import Verif.Model.Session
import Verif.Proofs.MachineTerm

/-!
# The exit state
-/

namespace TW

variable {ρ : Type} [Reader ρ]

theorem M.bind_eq {σ α β : Type} {x : M σ α} {g : α → M σ β} {s s' : σ} {b : β}
    (h : (x >>= g) s = (.ok b, s')) : ∃ a s1, x s = (.ok a, s1) ∧ g a s1 = (.ok b, s') := by
  rw [M.bind_run] at h
  generalize x s = y at h ⊢
  obtain ⟨y, s1⟩ := y
  cases y with
  | ok a => exact ⟨a, s1, rfl, h⟩
  | stop er => cases h

theorem M.pure_eq {σ α : Type} {a b : α} {s s' : σ} (h : (pure a : M σ α) s = (.ok b, s')) :
    b = a ∧ s' = s := by
  cases h; exact ⟨rfl, rfl⟩

theorem stm_arg_exit : ∀ s ∈ STMState.all, ∀ op arg, (stm s).action = some (op, arg) → arg = .Exit →
    s = .EXIT := by
  intro s _ op arg h1 h2
  subst h2
  cases s <;> simp [stm] at h1 ⊢

theorem action_res {n mask : Nat} {op : STMAction} {arg r : ElementType} {s s' : Scanner ρ}
    (h : Scanner.action n mask op arg s = (.ok (some r), s')) : r = arg ∨ r = .None ∨ r = .HeaderStart := by
  unfold Scanner.action at h
  cases htd : tokenDefs op <;> simp only [htd] at h
  rotate_left
  · obtain ⟨s1, _, -, h⟩ := M.bind_eq h
    split at h
    · split at h
      · obtain ⟨b, s2, -, h⟩ := M.bind_eq h
        split at h <;> obtain ⟨h, -⟩ := M.pure_eq h <;> cases h
        exact .inl rfl
      · obtain ⟨b, s2, -, h⟩ := M.bind_eq h
        split at h <;> obtain ⟨h, -⟩ := M.pure_eq h <;> cases h
        exact .inl rfl
    · obtain ⟨h, -⟩ := M.pure_eq h
      cases h
      exact .inl rfl
  · cases hsd : stringDefs op <;> simp only [hsd] at h
    rotate_left
    · obtain ⟨s1, _, -, h⟩ := M.bind_eq h
      split at h
      · obtain ⟨b, s2, -, h⟩ := M.bind_eq h
        split at h
        · split at h
          · obtain ⟨_, _, -, h⟩ := M.bind_eq h
            obtain ⟨_, _, -, h⟩ := M.bind_eq h
            obtain ⟨_, _, -, h⟩ := M.bind_eq h
            obtain ⟨_, _, -, h⟩ := M.bind_eq h
            obtain ⟨h, -⟩ := M.pure_eq h
            cases h
            exact .inr (.inr rfl)
          · obtain ⟨h, -⟩ := M.pure_eq h
            cases h
            exact .inr (.inl rfl)
        · obtain ⟨h, -⟩ := M.pure_eq h
          cases h
      · split at h
        · obtain ⟨h, -⟩ := M.pure_eq h
          cases h
          exact .inr (.inr rfl)
        · obtain ⟨h, -⟩ := M.pure_eq h
          cases h
          exact .inr (.inl rfl)
    · obtain ⟨_, _, -, h⟩ := M.bind_eq h
      obtain ⟨h, -⟩ := M.pure_eq h
      cases h
      exact .inl rfl

theorem transition_res {sd : Elem} {rt r : ElementType} {s s' : Scanner ρ}
    (h : Scanner.transition sd rt s = (.ok (some r), s')) : r = rt ∨ r = .ErrorOccurred := by
  have hl : ∀ {r}, some r = Scanner.loopEnd rt → r = rt := by
    intro r h
    unfold Scanner.loopEnd at h
    split at h <;> cases h
    rfl
  unfold Scanner.transition at h
  obtain ⟨ch, _, -, h⟩ := M.bind_eq h
  obtain ⟨_, _, -, h⟩ := M.bind_eq h
  cases h1 : sd.next ch <;> simp only [h1] at h
  rotate_left
  · obtain ⟨_, _, -, h⟩ := M.bind_eq h
    obtain ⟨_, _, -, h⟩ := M.bind_eq h
    exact .inl (hl (M.pure_eq h).1)
  · cases h2 : sd.fallback <;> simp only [h2] at h
    rotate_left
    · obtain ⟨_, _, -, h⟩ := M.bind_eq h
      exact .inl (hl (M.pure_eq h).1)
    · cases h3 : sd.miss <;> simp only [h3] at h
      · obtain ⟨_, _, -, h⟩ := M.bind_eq h
        obtain ⟨h, -⟩ := M.pure_eq h
        cases h
        exact .inr rfl
      · obtain ⟨_, _, -, h⟩ := M.bind_eq h
        obtain ⟨h, -⟩ := M.pure_eq h
        cases h
        exact .inr rfl

/-- In the exit state. -/
theorem body_exit {n mask : Nat} {s : Scanner ρ} (hs : s.state = .EXIT) :
    Scanner.body n mask s =
      (.ok (some .Exit), { s with tokenpos := Reader.getPosition s.src, out := [] }) := by
  unfold Scanner.body
  rw [M.bind_ok (M.get_run s), hs]
  simp only [Mach.stm_exit.1, Mach.stm_exit.2, show (stm .EXIT).fallback = none by decide]
  unfold Scanner.action
  simp only [tokenDefs, stringDefs]
  rw [← hs]
  rfl

theorem body_res {n mask : Nat} {s s' : Scanner ρ}
    (h : Scanner.body n mask s = (.ok (some .Exit), s')) : s'.state = .EXIT := by
  by_cases hs : s.state = .EXIT
  · rw [body_exit hs] at h
    cases h
    exact hs
  · exfalso
    unfold Scanner.body at h
    rw [M.bind_ok (M.get_run s)] at h
    cases ha : (stm s.state).action with
    | none =>
      simp only [ha] at h
      rcases transition_res h with h | h <;> cases h
    | some oa =>
      obtain ⟨op, arg⟩ := oa
      simp only [ha] at h
      have harg : arg ≠ .Exit := fun h => hs (stm_arg_exit _ (STMState.mem_all _) _ _ ha h)
      obtain ⟨r, s1, h1, h⟩ := M.bind_eq h
      cases r with
      | none => obtain ⟨h, -⟩ := M.pure_eq h; cases h
      | some rt =>
        have hrt : rt ≠ .Exit := by
          rcases action_res h1 with rfl | rfl | rfl
          · exact harg
          · simp
          · simp
        simp only at h
        split at h
        · cases hfb : (stm s.state).fallback <;> simp only [hfb] at h
          rotate_left
          · obtain ⟨_, _, -, h⟩ := M.bind_eq h
            obtain ⟨h, -⟩ := M.pure_eq h
            cases h
            exact hrt rfl
          · obtain ⟨h, -⟩ := M.pure_eq h
            cases h
            exact hrt rfl
        · rcases transition_res h with h | h
          · exact hrt h.symm
          · cases h

theorem itemLoop_res {n mask k : Nat} {s s' : Scanner ρ}
    (h : Scanner.itemLoop n mask k s = (.ok .Exit, s')) : s'.state = .EXIT := by
  induction k generalizing s with
  | zero => cases h
  | succ k ih =>
    unfold Scanner.itemLoop at h
    obtain ⟨r, s1, h1, h⟩ := M.bind_eq h
    cases r with
    | none => exact ih h
    | some t =>
      obtain ⟨rfl, rfl⟩ := M.pure_eq h
      exact body_res h1

theorem nextItem_exit {n mask : Nat} {s : Scanner ρ} (hs : s.state = .EXIT) (hn : 1 ≤ n) :
    Scanner.nextItem n mask s =
      (.ok .Exit, { s with tokenpos := Reader.getPosition s.src, out := [] }) := by
  obtain ⟨k, rfl⟩ := Nat.exists_eq_add_of_le' hn
  unfold Scanner.nextItem Scanner.itemLoop
  rw [M.bind_ok (body_exit hs)]
  rfl

theorem session_exit {n : Nat} {sp : Bool} (hn : 1 ≤ n) (calls : List (Nat × Bool)) : ∀ {s : Scanner ρ},
    s.state = .EXIT → ∃ obs s', Scanner.session n sp calls s = (.ok obs, s') ∧
      obs.length = calls.length ∧ s'.src = s.src ∧
      ∀ o ∈ obs, o.type = .Exit ∧ o.item = [] ∧ (o.error = s.error ∨ o.error = .Ok) ∧
        o.pos = if sp then some (Reader.getPosition s.src) else none := by
  induction calls with
  | nil => intro s _; exact ⟨[], s, rfl, rfl, rfl, fun o ho => nomatch ho⟩
  | cons mc cs ih =>
    obtain ⟨mask, c⟩ := mc
    intro s hs
    have h1 := nextItem_exit (mask := mask) hs hn
    generalize hs1 : ({ s with tokenpos := Reader.getPosition s.src, out := [] } : Scanner ρ) = s1 at h1
    have g1 : s1.state = .EXIT := by rw [← hs1]; exact hs
    have g2 : s1.src = s.src := by rw [← hs1]
    have g3 : s1.error = s.error := by rw [← hs1]
    have hc : ∃ s2, Scanner.clearIf c s1 = (.ok (), s2) ∧ s2.state = .EXIT ∧ s2.src = s.src ∧
        (s2.error = s.error ∨ s2.error = .Ok) := by
      cases c with
      | false => exact ⟨s1, rfl, g1, g2, .inl g3⟩
      | true => exact ⟨_, rfl, g1, g2, .inr rfl⟩
    obtain ⟨s2, h2, h3, h4, h5⟩ := hc
    obtain ⟨obs, s', h6, h7, h8, h9⟩ := ih h3
    refine ⟨Scanner.observe sp .Exit s1 :: obs, s', ?_, by simp [h7], by rw [h8, h4], ?_⟩
    · unfold Scanner.session
      rw [M.bind_ok h1, M.bind_ok (M.get_run _), M.bind_ok h2, M.bind_ok h6]
      rfl
    · intro o ho
      rcases List.mem_cons.1 ho with rfl | ho
      · refine ⟨rfl, by rw [← hs1]; rfl, .inl g3, ?_⟩
        rw [← hs1]; rfl
      · obtain ⟨k1, k2, k3, k4⟩ := h9 o ho
        refine ⟨k1, k2, ?_, by rw [k4, h4]⟩
        rcases k3 with k3 | k3
        · rw [k3]; exact h5
        · exact .inr k3

end TW
