import Verif.Spec.Path

/-!
# More fuel does not change the results of a selector
-/

namespace TW.Path

namespace Sel

theorem fetchLoop_mono (n : Nat) : ∀ {s : Sel} {r : Int} {s' : Sel}, fetchLoop n s = (.ok r, s') →
    ∀ m, n ≤ m → fetchLoop m s = (.ok r, s') := by
  induction n with
  | zero => intro s r s' h; cases h
  | succ n ih =>
    intro s r s' h m hm
    obtain ⟨m, rfl⟩ : ∃ k, m = k + 1 := ⟨m - 1, by omega⟩
    unfold fetchLoop at h ⊢
    rw [M.bind_ok (M.get_run _)] at h ⊢
    -- the visit of a token
    have visit : ∀ t, (do
        let type ← matchToken t
        M.modify fun s => { s with iter := s.iter + 1 }
        if type = 0 then fetchLoop n else pure type : M Sel Int) s = (.ok r, s') →
        (do
        let type ← matchToken t
        M.modify fun s => { s with iter := s.iter + 1 }
        if type = 0 then fetchLoop m else pure type : M Sel Int) s = (.ok r, s') := by
      intro t h
      cases h1 : matchToken t s with
      | mk x s1 =>
        cases x with
        | stop e => rw [M.bind_stop h1] at h; cases h
        | ok ty =>
          rw [M.bind_ok h1, M.bind_ok (M.modify_run _ _)] at h ⊢
          by_cases h0 : ty = 0
          · rw [if_pos h0] at h ⊢
            exact ih h m (by omega)
          · rw [if_neg h0] at h ⊢
            exact h
    have rest : (match s.triggers with
        | t :: ts => do
          M.modify fun s => { s with triggers := ts }
          if t = 0 then fetchLoop n else pure t
        | [] => do
          M.modify fun s => { s with key := none }
          pure 0 : M Sel Int) s = (.ok r, s') →
        (match s.triggers with
        | t :: ts => do
          M.modify fun s => { s with triggers := ts }
          if t = 0 then fetchLoop m else pure t
        | [] => do
          M.modify fun s => { s with key := none }
          pure 0 : M Sel Int) s = (.ok r, s') := by
      intro h
      cases ht : s.triggers with
      | nil => rw [ht] at h; exact h
      | cons t ts =>
        rw [ht] at h
        simp only [] at h ⊢
        rw [M.bind_ok (M.modify_run _ _)] at h ⊢
        by_cases h0 : t = 0
        · rw [if_pos h0] at h ⊢
          exact ih h m (by omega)
        · rw [if_neg h0] at h ⊢
          exact h
    by_cases h1 : s.iter < s.scope.tokenTo
    · rw [if_pos h1] at h ⊢
      exact visit _ h
    · rw [if_neg h1] at h ⊢
      simp only [] at h ⊢
      by_cases h2 : s.iter - s.scope.tokenTo < s.scope.followidx
      · rw [if_pos h2] at h ⊢
        cases h3 : s.follows[s.iter - s.scope.tokenTo]? with
        | none => rw [h3] at h; cases h
        | some t =>
          rw [h3] at h
          simp only [] at h ⊢
          by_cases h4 : t < s.scope.tokenFrom
          · rw [if_pos h4] at h ⊢
            exact visit t h
          · rw [if_neg h4] at h ⊢
            exact rest h
      · rw [if_neg h2] at h ⊢
        exact rest h

theorem fetch_mono {n : Nat} {s : Sel} {r : Int} {s' : Sel} (h : fetch n s = (.ok r, s')) {m : Nat} (hm : n ≤ m) :
    fetch m s = (.ok r, s') := by
  unfold fetch at h ⊢
  rw [M.bind_ok (M.get_run _)] at h ⊢
  by_cases h1 : s.scope.mask.matches s.type = true
  · rw [if_pos h1] at h ⊢
    exact fetchLoop_mono n h m hm
  · rw [if_neg h1] at h ⊢
    exact h

theorem walk_mono {n : Nat} (post : Bool) {m : Nat} (hm : n ≤ m) (k : Nat) : ∀ {el : Int} {s : Sel} {rs : List Int} {s' : Sel},
    walk n post k el s = (.ok rs, s') → ∀ j, k ≤ j → walk m post j el s = (.ok rs, s') := by
  induction k with
  | zero => intro el s rs s' h; cases h
  | succ k ih =>
    intro el s rs s' h j hj
    obtain ⟨j, rfl⟩ : ∃ i, j = i + 1 := ⟨j - 1, by omega⟩
    unfold walk at h ⊢
    by_cases h0 : el = 0
    · rw [if_pos h0] at h ⊢
      exact h
    · rw [if_neg h0] at h ⊢
      cases h1 : fetch n s with
      | mk x s1 =>
        cases x with
        | stop e => rw [M.bind_stop h1] at h; cases h
        | ok e =>
          rw [M.bind_ok h1] at h
          rw [M.bind_ok (fetch_mono h1 hm)]
          cases post with
          | false =>
            simp only [Bool.false_eq_true, if_false] at h ⊢
            cases h2 : walk n false k e s1 with
            | mk x s2 =>
              cases x with
              | stop er => rw [M.bind_stop h2] at h; cases h
              | ok es =>
                rw [M.bind_ok h2] at h
                rw [M.bind_ok (ih h2 j (by omega))]
                exact h
          | true =>
            simp only [if_true] at h ⊢
            rw [M.bind_ok (M.modify_run _ _)] at h ⊢
            cases h2 : walk n true k e s1.closeElement with
            | mk x s2 =>
              cases x with
              | stop er => rw [M.bind_stop h2] at h; cases h
              | ok es =>
                rw [M.bind_ok h2] at h
                rw [M.bind_ok (ih h2 j (by omega))]
                exact h

theorem push_mono {n : Nat} {post : Bool} {type : ElementType} {key : List Byte} {s : Sel} {rs : List Int} {s' : Sel}
    (h : push n post type key s = (.ok rs, s')) {m : Nat} (hm : n ≤ m) : push m post type key s = (.ok rs, s') := by
  unfold push at h ⊢
  rw [M.bind_ok (M.modify_run _ _)] at h ⊢
  cases h1 : fetch n (initElement type key s) with
  | mk x s1 =>
    cases x with
    | stop e => rw [M.bind_stop h1] at h; cases h
    | ok e =>
      rw [M.bind_ok h1] at h
      rw [M.bind_ok (fetch_mono h1 hm)]
      cases h2 : walk n post n e s1 with
      | mk x s2 =>
        cases x with
        | stop er => rw [M.bind_stop h2] at h; cases h
        | ok es =>
          rw [M.bind_ok h2] at h
          rw [M.bind_ok (walk_mono post hm n h2 m hm)]
          exact h

theorem feed_mono {n m : Nat} (hm : n ≤ m) (items : List (ElementType × List Byte)) : ∀ {s : Sel} {rss : List (List Int)} {s' : Sel},
    feed n items s = (.ok rss, s') → feed m items s = (.ok rss, s') := by
  induction items with
  | nil => intro s rss s' h; exact h
  | cons it items ih =>
    intro s rss s' h
    unfold feed at h ⊢
    cases h1 : push n false it.1 it.2 s with
    | mk x s1 =>
      cases x with
      | stop e => rw [M.bind_stop h1] at h; cases h
      | ok r =>
        rw [M.bind_ok h1] at h
        rw [M.bind_ok (push_mono h1 hm)]
        cases h2 : feed n items s1 with
        | mk x s2 =>
          cases x with
          | stop er => rw [M.bind_stop h2] at h; cases h
          | ok rs =>
            rw [M.bind_ok h2] at h
            rw [M.bind_ok (ih h2)]
            exact h

end Sel

/-- The results of a run. -/
def runSel (e : Enc) (n : Nat) (defs : List (List PElem.Call)) (items : List (ElementType × List Byte)) (m : Nat) :
    Option (List (List Int)) :=
  match build e n defs [] with
  | (.ok (), a) =>
    match Sel.mk' a with
    | .ok s =>
      match Sel.feed m items s with
      | (.ok rss, _) => some rss
      | (.stop _, _) => none
    | .stop _ => none
  | (.stop _, _) => none

theorem selects_of_run {e : Enc} {n : Nat} {defs : List (List PElem.Call)} {items : List (ElementType × List Byte)} (m : Nat)
    {rss : List (List Int)} (h : runSel e n defs items m = some rss) : Spec.Path.Selects e n defs items rss := by
  unfold runSel at h
  cases h1 : build e n defs [] with
  | mk x a =>
    rw [h1] at h
    cases x with
    | stop er => cases h
    | ok u =>
      cases u
      simp only [] at h
      cases h2 : Sel.mk' a with
      | stop er => rw [h2] at h; cases h
      | ok s =>
        rw [h2] at h
        simp only [] at h
        cases h3 : Sel.feed m items s with
        | mk y s' =>
          rw [h3] at h
          cases y with
          | stop er => cases h
          | ok r =>
            cases h
            exact ⟨a, s, h1, h2, m, s', fun k hk => Sel.feed_mono hk items h3⟩

/-- There are no other results. -/
theorem selects_det {e : Enc} {n : Nat} {defs : List (List PElem.Call)} {items : List (ElementType × List Byte)}
    {rss rss' : List (List Int)} (h : Spec.Path.Selects e n defs items rss) (h' : Spec.Path.Selects e n defs items rss') :
    rss = rss' := by
  obtain ⟨a, s, h1, h2, N, s', h3⟩ := h
  obtain ⟨a2, s2, k1, k2, N2, s2', k3⟩ := h'
  rw [h1] at k1
  cases k1
  rw [h2] at k2
  cases k2
  have := h3 (max N N2) (by omega)
  rw [k3 (max N N2) (by omega)] at this
  cases this
  rfl

end TW.Path
