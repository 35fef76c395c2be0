import Verif.Model.ScanIterator
import Verif.Proofs.Exit

/-!
# The loop with the iterator of the scanner and the calls of `nextItem`
-/

namespace TW.Scanner

variable {ρ : Type} [Reader ρ]

/-- The iterator at the item of type `r` just read. -/
def cur (r : ElementType) (s : Scanner ρ) : Iterator := { element := element r s, input := true }

omit [Reader ρ] in
theorem iterSees_cur (r : ElementType) (s : Scanner ρ) : iterSees (cur r s) s = (.ok (r, s.out), s) := by
  unfold iterSees cur element readMem
  by_cases h : s.out.length = 0
  · simp [List.length_eq_zero_iff.1 h]
  · simp only [h, if_false]
    rw [if_pos (by omega), List.take_append_of_le_length (Nat.le_refl _), List.take_length]

omit [Reader ρ] in
theorem iterEq_end (r : ElementType) (s : Scanner ρ) : iterEq (cur r s) iterEnd = decide (r = .Exit) := by
  unfold iterEq cur iterEnd element Element.fin
  by_cases h : r = .Exit <;> simp [h]

theorem iterBegin_ok {n : Nat} {s s' : Scanner ρ} {r : ElementType} (h : nextItem n 0xFFFF s = (.ok r, s')) :
    iterBegin n true s = (.ok (cur r s'), s') := by
  unfold iterBegin
  rw [if_pos rfl, M.bind_ok h]
  rfl

theorem iterSkip_ok {n : Nat} {s s' s0 : Scanner ρ} {r r0 : ElementType} (h : nextItem n 0xFFFF s = (.ok r, s')) :
    iterSkip n 0xFFFF (cur r0 s0) s = (.ok (cur r s'), s') := by
  unfold iterSkip
  rw [if_pos (show (cur r0 s0).input = true from rfl), M.bind_ok h]
  rfl

theorem iterInc_eq (n : Nat) (post : Bool) (it : Iterator) (s : Scanner ρ) : iterInc n post it s = iterSkip n 0xFFFF it s := by
  unfold iterInc
  cases post
  · rfl
  · rw [if_pos rfl]
    unfold iterPost
    rw [M.bind_run, M.bind_run]
    rcases iterSkip n 0xFFFF it s with ⟨r | r, s'⟩ <;> rfl

theorem iterLoop_succ (n : Nat) (post : Bool) (k : Nat) (it : Iterator) : iterLoop (ρ := ρ) n post (k + 1) it =
    if iterEq it iterEnd then pure ([], true) else
      (do
        let x ← iterSees it
        let it' ← iterInc n post it
        let (xs, d) ← iterLoop n post k it'
        pure (x :: xs, d)) := rfl

theorem iterLoop_exit (n : Nat) (post : Bool) (k : Nat) (s : Scanner ρ) :
    iterLoop n post (k + 1) (cur .Exit s) s = (.ok ([], true), s) := by
  rw [iterLoop_succ, iterEq_end]
  rfl

theorem iterLoop_next {n : Nat} (post : Bool) (k : Nat) {r r' : ElementType} {s s' : Scanner ρ} (hr : r ≠ .Exit)
    (h : nextItem n 0xFFFF s = (.ok r', s')) :
    iterLoop n post (k + 1) (cur r s) s = match iterLoop n post k (cur r' s') s' with
      | (.ok (xs, d), s'') => (.ok ((r, s.out) :: xs, d), s'')
      | (.stop er, s'') => (.stop er, s'') := by
  rw [iterLoop_succ, iterEq_end, if_neg (by simpa using hr), M.bind_ok (iterSees_cur r s),
    M.bind_ok ((iterInc_eq n post _ s).trans (iterSkip_ok h)), M.bind_run]
  rcases iterLoop n post k (cur r' s') s' with ⟨⟨xs, d⟩ | er, s''⟩ <;> rfl

theorem iterLoop_stop {n : Nat} (post : Bool) (k : Nat) {r : ElementType} {s s' : Scanner ρ} {er : Stop} (hr : r ≠ .Exit)
    (h : nextItem n 0xFFFF s = (.stop er, s')) : iterLoop n post (k + 1) (cur r s) s = (.stop er, s') := by
  have h' : iterSkip n 0xFFFF (cur r s) s = (.stop er, s') := by
    unfold iterSkip
    rw [if_pos (show (cur r s).input = true from rfl), M.bind_run, h]
  rw [iterLoop_succ, iterEq_end, if_neg (by simpa using hr), M.bind_ok (iterSees_cur r s), M.bind_run, iterInc_eq, h']

/-- `m` calls that ask for all items. -/
def asks (m : Nat) : List (Nat × Bool) := List.replicate m (0xFFFF, false)

theorem session_asks {n m : Nat} {s s1 : Scanner ρ} {obs : List Obs} (h : session n false (asks (m + 1)) s = (.ok obs, s1)) :
    ∃ r s' obs', nextItem n 0xFFFF s = (.ok r, s') ∧ session n false (asks m) s' = (.ok obs', s1) ∧
      obs = observe false r s' :: obs' := by
  unfold asks at h
  rw [List.replicate_succ] at h
  unfold session at h
  obtain ⟨r, s', h1, h2⟩ := M.bind_eq h
  rw [M.bind_ok (M.get_run _), M.bind_ok (show clearIf false s' = (.ok (), s') from rfl)] at h2
  obtain ⟨obs', s'', h3, h4⟩ := M.bind_eq h2
  obtain ⟨h5, h6⟩ := M.pure_eq h4
  exact ⟨r, s', obs', h1, h6 ▸ h3, h5⟩

theorem session_asks_of {n m : Nat} {s s' s1 : Scanner ρ} {r : ElementType} {obs : List Obs}
    (h : nextItem n 0xFFFF s = (.ok r, s')) (h1 : session n false (asks m) s' = (.ok obs, s1)) :
    session n false (asks (m + 1)) s = (.ok (observe false r s' :: obs), s1) := by
  show session n false ((0xFFFF, false) :: asks m) s = _
  unfold session
  rw [M.bind_ok h, M.bind_ok (M.get_run _), M.bind_ok (show clearIf false s' = (.ok (), s') from rfl), M.bind_ok h1]
  rfl

/-- What the program sees of an item. -/
def seen (o : Obs) : ElementType × List Byte := (o.type, o.item)

theorem iterLoop_of_session {n : Nat} {post : Bool} : ∀ (k m : Nat) {r : ElementType} {s s1 : Scanner ρ} {obs : List Obs},
    session n false (asks m) s = (.ok obs, s1) →
    k ≤ m ∨ (∃ o ∈ observe false r s :: obs, o.type = .Exit) →
    (iterLoop n post k (cur r s) s).1 = .ok ((((observe false r s :: obs).take k).takeWhile (·.type ≠ .Exit)).map seen,
      ((observe false r s :: obs).take k).any (·.type = .Exit))
  | 0, _, _, _, _, _, _, _ => by simp [iterLoop]
  | k + 1, m, r, s, s1, obs, h, hk => by
    by_cases hr : r = .Exit
    · subst hr
      rw [iterLoop_exit]
      simp [observe]
    · have hm : ∃ m', m = m' + 1 := by
        cases m with
        | succ m => exact ⟨m, rfl⟩
        | zero =>
          rcases hk with hk | ⟨o, ho, hx⟩
          · omega
          · have : obs = [] := by
              exact (M.pure_eq h).1
            subst this
            rw [List.mem_singleton.1 ho] at hx
            exact absurd hx hr
      obtain ⟨m, rfl⟩ := hm
      obtain ⟨r', s', obs', h1, h2, rfl⟩ := session_asks h
      have ih := iterLoop_of_session (post := post) k m (r := r') h2 (by
        rcases hk with hk | ⟨o, ho, hx⟩
        · exact .inl (by omega)
        · rcases List.mem_cons.1 ho with rfl | ho
          · exact absurd hx hr
          · exact .inr ⟨o, ho, hx⟩)
      rw [iterLoop_next post k hr h1]
      have hr' : (observe false r s).type ≠ .Exit := hr
      rw [List.take_succ_cons, List.takeWhile_cons_of_pos (by simpa using hr'), List.any_cons]
      rcases hl : iterLoop n post k (cur r' s') s' with ⟨⟨xs, d⟩ | er, s''⟩
      · rw [hl] at ih
        simp only [Res.ok.injEq, Prod.mk.injEq] at ih ⊢
        obtain ⟨rfl, rfl⟩ := ih
        simp [seen, observe, hr]
      · rw [hl] at ih
        cases ih

theorem iterate_of_session {n : Nat} {post : Bool} {k m : Nat} {s s1 : Scanner ρ} {obs : List Obs}
    (h : session n false (asks m) s = (.ok obs, s1)) (hk : k + 1 ≤ m ∨ (∃ o ∈ obs, o.type = .Exit)) :
    (iterate n post k s).1 = .ok (((obs.take k).takeWhile (·.type ≠ .Exit)).map seen, (obs.take k).any (·.type = .Exit)) := by
  cases m with
  | zero =>
    have : obs = [] := (M.pure_eq h).1
    subst this
    rcases hk with hk | ⟨o, ho, -⟩
    · omega
    · cases ho
  | succ m =>
    obtain ⟨r, s', obs', h1, h2, rfl⟩ := session_asks h
    unfold iterate
    rw [M.bind_ok (iterBegin_ok h1)]
    exact iterLoop_of_session k m h2 (hk.imp (by omega) id)

theorem iterLoop_calls {n : Nat} {post : Bool} : ∀ (k : Nat) {r : ElementType} {s s1 : Scanner ρ}
    {xs : List (ElementType × List Byte)} {d : Bool}, iterLoop n post k (cur r s) s = (.ok (xs, d), s1) →
    ∃ obs o, session n false (asks xs.length) s = (.ok obs, s1) ∧ observe false r s :: obs = (observe false r s :: obs).take xs.length ++ [o] ∧
      ((observe false r s :: obs).take xs.length).map seen = xs ∧ (d = true → o.type = .Exit) ∧
      (d = false → xs.length = k) ∧ ∀ x ∈ xs, x.1 ≠ .Exit
  | 0, r, s, s1, xs, d, h => by
    have h := M.pure_eq h
    obtain ⟨h1, rfl⟩ := h
    cases h1
    exact ⟨[], _, rfl, rfl, rfl, (nomatch ·), fun _ => rfl, fun x hx => nomatch hx⟩
  | k + 1, r, s, s1, xs, d, h => by
    by_cases hr : r = .Exit
    · subst hr
      rw [iterLoop_exit] at h
      cases h
      exact ⟨[], _, rfl, rfl, rfl, fun _ => rfl, (nomatch ·), fun x hx => nomatch hx⟩
    · rcases hn : nextItem n 0xFFFF s with ⟨r' | er, s'⟩
      · rw [iterLoop_next post k hr hn] at h
        rcases hl : iterLoop n post k (cur r' s') s' with ⟨⟨ys, d'⟩ | er, s''⟩
        · rw [hl] at h
          simp only [Prod.mk.injEq, Res.ok.injEq] at h
          obtain ⟨⟨rfl, rfl⟩, rfl⟩ := h
          obtain ⟨obs, o, h1, h2, h3, h4, h5, h6⟩ := iterLoop_calls k hl
          refine ⟨observe false r' s' :: obs, o, session_asks_of hn h1, ?_, ?_, h4, ?_, ?_⟩
          · rw [List.length_cons, List.take_succ_cons, List.cons_append, ← h2]
          · rw [List.length_cons, List.take_succ_cons, List.map_cons, h3]
            rfl
          · intro hd
            rw [List.length_cons, h5 hd]
          · intro x hx
            rcases List.mem_cons.1 hx with rfl | hx
            · exact hr
            · exact h6 x hx
        · rw [hl] at h
          cases h
      · rw [iterLoop_stop post k hr hn] at h
        cases h

end TW.Scanner
