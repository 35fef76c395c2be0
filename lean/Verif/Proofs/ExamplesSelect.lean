import Verif.Proofs.Examples
import Verif.Props.PathScopes

/-!
# The example program with the selector
-/

namespace TW

open Spec TW.Path Scanner

theorem walk_nonzero {n : Nat} : ∀ (k : Nat) (x : Int) {s s' : Sel} {rs : List Int}, Sel.walk n false k x s = (.ok rs, s') → (0 : Int) ∉ rs
  | 0, _, _, _, _, h => nomatch h
  | k + 1, x, s, s', rs, h => by
    unfold Sel.walk at h
    by_cases hx : x = 0
    · rw [if_pos hx] at h
      obtain ⟨rfl, -⟩ := M.pure_eq h
      exact List.not_mem_nil
    · rw [if_neg hx] at h
      obtain ⟨x', s1, -, h⟩ := M.bind_eq h
      simp only [Bool.false_eq_true, if_false] at h
      obtain ⟨es, s2, h2, h⟩ := M.bind_eq h
      obtain ⟨rfl, -⟩ := M.pure_eq h
      have := walk_nonzero k x' h2
      simp only [List.mem_cons, not_or]
      exact ⟨fun h => hx h.symm, this⟩

theorem push_nonzero {n : Nat} {type : ElementType} {key : List Byte} {s s' : Sel} {rs : List Int}
    (h : Sel.push n false type key s = (.ok rs, s')) : (0 : Int) ∉ rs := by
  unfold Sel.push at h
  obtain ⟨_, s1, -, h⟩ := M.bind_eq h
  obtain ⟨x, s2, -, h⟩ := M.bind_eq h
  obtain ⟨es, s3, h3, h⟩ := M.bind_eq h
  obtain ⟨_, s4, -, h⟩ := M.bind_eq h
  obtain ⟨rfl, -⟩ := M.pure_eq h
  exact walk_nonzero _ _ h3

theorem push_post {n : Nat} {type : ElementType} {key : List Byte} {s s' : Sel} {rs : List Int}
    (h : Sel.push n false type key s = (.ok rs, s')) (hc : type = .CloseTag ∨ type = .CloseTagIm → rs = []) :
    Sel.push n true type key s = (.ok rs, s') := by
  by_cases ht : type = .CloseTag ∨ type = .CloseTagIm
  · have hrs := hc ht
    subst hrs
    rw [← h]
    apply C48_postfix_partial
    right
    unfold Sel.push at h
    rw [M.bind_ok (M.modify_run _ _)] at h
    obtain ⟨x, s2, h2, h⟩ := M.bind_eq h
    obtain ⟨es, s3, h3, h⟩ := M.bind_eq h
    obtain ⟨_, s4, -, h⟩ := M.bind_eq h
    obtain ⟨rfl, -⟩ := M.pure_eq h
    cases n with
    | zero => exact nomatch h3
    | succ n =>
      unfold Sel.walk at h3
      by_cases hx : x = 0
      · subst hx
        exact ⟨s2, Nat.succ_pos _, h2⟩
      · rw [if_neg hx] at h3
        obtain ⟨x', s1, -, h3⟩ := M.bind_eq h3
        simp only [Bool.false_eq_true, if_false] at h3
        obtain ⟨es, s5, -, h3⟩ := M.bind_eq h3
        obtain ⟨h4, -⟩ := M.pure_eq h3
        cases h4
  · rw [C48_postfix_partial _ _ _ _ (.inl ⟨fun h => ht (.inl h), fun h => ht (.inr h)⟩)]
    exact h

theorem feed_append {n : Nat} : ∀ (l r : List (ElementType × List Byte)) {s s' : Sel} {rss : List (List Int)},
    Sel.feed n (l ++ r) s = (.ok rss, s') → ∃ rs1 s1 rs2, Sel.feed n l s = (.ok rs1, s1) ∧ rss = rs1 ++ rs2 ∧ rs1.length = l.length
  | [], r, s, s', rss, _ => ⟨[], s, rss, rfl, rfl, rfl⟩
  | (t, x) :: l, r, s, s', rss, h => by
    rw [List.cons_append, Sel.feed] at h
    obtain ⟨a, s1, h1, h⟩ := M.bind_eq h
    obtain ⟨as, s2, h2, h⟩ := M.bind_eq h
    obtain ⟨rfl, -⟩ := M.pure_eq h
    obtain ⟨rs1, s3, rs2, h3, rfl, h4⟩ := feed_append l r h2
    refine ⟨a :: rs1, s3, rs2, ?_, rfl, by simp [h4]⟩
    rw [Sel.feed, M.bind_ok h1, M.bind_ok h3]
    rfl

/-- What is written for the results of items. -/
def picked (l : List ((ElementType × List Byte) × List Int)) : List Byte :=
  l.flatMap fun x => x.2.flatMap fun r => showInt r ++ ascii ": " ++ elementTypeName x.1.1 ++ x.1.2 ++ [10]

variable {ρ : Type} [Reader ρ]

/-- The loop from `begin` on. -/
def selectFrom (n k : Nat) (sel : Sel) (s : Scanner ρ) : List Byte × Ended :=
  match iterBegin n true s with
  | (.stop er, _) => ([], .stopped er)
  | (.ok it, s) => selectItems n k it sel s

theorem iterPost_cur (n : Nat) (r : ElementType) (s s' : Scanner ρ) : iterPost n (cur r s) s' =
    match iterBegin n true s' with
    | (.ok it, s'') => (.ok (cur r s, it), s'')
    | (.stop er, s'') => (.stop er, s'') := by
  have h := iterPre_cur n r s s'
  unfold iterPre at h
  unfold iterPost
  rw [M.bind_run, h]
  rcases iterBegin n true s' with ⟨it | er, s''⟩ <;> rfl

theorem selectFrom_ok {n : Nat} (k : Nat) {sel : Sel} {s s' : Scanner ρ} {r : ElementType} (h : nextItem n 0xFFFF s = (.ok r, s')) :
    selectFrom n k sel s = selectItems n k (cur r s') sel s' := by
  unfold selectFrom
  rw [iterBegin_ok h]

theorem selectItems_exit (n k : Nat) (sel : Sel) (s : Scanner ρ) : selectItems n (k + 1) (cur .Exit s) sel s = ([], .returned true) := by
  unfold selectItems
  rw [iterEq_end]
  rfl

theorem selectItems_item (n k : Nat) {r : ElementType} (h1 : r ≠ .Exit) (h2 : r ≠ .ErrorOccurred) (s : Scanner ρ) {sel sel' : Sel} {rs : List Int}
    (h : Sel.push n true r s.out sel = (.ok rs, sel')) :
    selectItems n (k + 1) (cur r s) sel s = (picked [((r, s.out), rs)] ++ (selectFrom n k sel' s).1, (selectFrom n k sel' s).2) := by
  unfold selectItems
  rw [iterEq_end, if_neg (by simpa using h1)]
  have : readStr s (cur r s).element.error = none := by
    unfold readStr cur Element.error element
    simp [h2]
  simp only [this, iterSees_cur, iterPost_cur, h]
  unfold selectFrom picked
  rcases iterBegin n true s with ⟨it | er, s'⟩ <;> simp

theorem select_loop {n : Nat} : ∀ (l : List (ElementType × List Byte)) (m k : Nat) {s s1 : Scanner ρ} {obs : List Obs} {x : List Byte}
    {r : List (ElementType × List Byte)} {sel sel' : Sel} {rss : List (List Int)},
    session n false (asks m) s = (.ok obs, s1) → obs.map seen = l ++ (.Exit, x) :: r → (∀ i ∈ l, i.1 ≠ .Exit ∧ i.1 ≠ .ErrorOccurred) →
    Sel.feed n l sel = (.ok rss, sel') → (∀ p ∈ l.zip rss, p.1.1 = .CloseTag ∨ p.1.1 = .CloseTagIm → p.2 = []) → l.length < k →
    selectFrom n k sel s = (picked (l.zip rss), .returned true) := by
  intro l
  induction l with
  | nil =>
    intro m k s s1 obs x r sel sel' rss h ho _ _ _ hk
    cases m with
    | zero =>
      obtain ⟨rfl, -⟩ := M.pure_eq h
      cases ho
    | succ m =>
      cases k with
      | zero => simp at hk
      | succ k =>
        obtain ⟨t, s', obs', h1, h2, rfl⟩ := session_asks h
        rw [List.map_cons, show seen (observe false t s') = (t, s'.out) from rfl] at ho
        obtain ⟨ht, -⟩ := List.cons.inj ho
        obtain ⟨rfl, -⟩ := Prod.mk.inj ht
        rw [selectFrom_ok _ h1, selectItems_exit]
        rfl
  | cons i l ih =>
    intro m k s s1 obs x r sel sel' rss h ho hp hf hc hk
    cases m with
    | zero =>
      obtain ⟨rfl, -⟩ := M.pure_eq h
      cases ho
    | succ m =>
      cases k with
      | zero => simp at hk
      | succ k =>
        obtain ⟨t, s', obs', h1, h2, rfl⟩ := session_asks h
        rw [List.map_cons, show seen (observe false t s') = (t, s'.out) from rfl] at ho
        obtain ⟨rfl, ho'⟩ := List.cons.inj ho
        rw [Sel.feed] at hf
        obtain ⟨a, s2, g1, hf⟩ := M.bind_eq hf
        obtain ⟨as, s3, g2, hf⟩ := M.bind_eq hf
        obtain ⟨rfl, -⟩ := M.pure_eq hf
        have h0 := hp _ List.mem_cons_self
        rw [selectFrom_ok _ h1, selectItems_item _ _ h0.1 h0.2 _ (push_post g1 fun ht => hc ((t, s'.out), a) (by simp) ht),
          ih m k h2 ho' (fun i hi => hp i (List.mem_cons_of_mem _ hi)) g2
            (fun p hp => hc p (by rw [List.zip_cons_cons]; exact List.mem_cons_of_mem _ hp)) (by simpa using hk)]
        simp [picked]

end TW
