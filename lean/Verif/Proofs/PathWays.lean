import Verif.Proofs.PathVisit
import Verif.Spec.Path

/-!
# Counting the ways to match steps
-/

namespace TW.Path

open Spec.Path (Open)

/-- The output of the value of an attribute, or the condition for it. -/
def valMask : Mask := ({} : Mask).seekop .ThisAttributeValue

/-- The sum over the tails of a list. -/
def sumTails (f : List Open → Nat) : List Open → Nat
  | [] => 0
  | _ :: q => f q + sumTails f q

/-- The sum over the elements of a list with the lists of those before. -/
def sumBefore {α : Type} (f : List α → α → Nat) : List α → Nat
  | [] => 0
  | a :: as => f [] a + sumBefore (fun l b => f (a :: l) b) as

theorem sumBefore_snoc {α : Type} (f : List α → α → Nat) (l : List α) (a : α) :
    sumBefore f (l ++ [a]) = sumBefore f l + f l a := by
  induction l generalizing f with
  | nil => simp [sumBefore]
  | cons x p ih =>
    simp only [List.cons_append, sumBefore, ih]
    omega

theorem sumBefore_congr {α : Type} {f g : List α → α → Nat} (h : ∀ l a, f l a = g l a) (l : List α) :
    sumBefore f l = sumBefore g l := by
  have : f = g := funext fun l => funext fun a => h l a
  rw [this]

theorem sumBefore_mul {α : Type} (f : List α → α → Nat) (c : Nat) (l : List α) :
    sumBefore (fun l a => f l a * c) l = sumBefore f l * c := by
  induction l generalizing f with
  | nil => simp [sumBefore]
  | cons x p ih => simp only [sumBefore, ih, Nat.add_mul]

/-- A transition at a tag. -/
def tagW (e : Edge) (f : List Open → Nat) (x : Open) (q : List Open) : Nat :=
  if accepts e.key x.name then f q + (if e.follow then sumTails f q else 0) else 0

/-- Two transitions at an attribute. -/
def attW (e1 e : Edge) (f : List Open → Nat) (x : Open) (q : List Open) : Nat :=
  sumBefore (fun as a => if accepts e1.key a.1 ∧ accepts e.key a.2 then f (⟨x.name, as⟩ :: q) else 0) x.attrs

/-- In how many ways transitions can be matched; the transitions and the elements are given from their ends. Outside of the
elements the ways are those given by `B`. -/
def V (B : List Edge → Nat) : List Edge → List Open → Nat
  | [], [] => B []
  | [], _ :: _ => 0
  | [e], [] => B [e]
  | [e], x :: q => if e.mask = valMask then 0 else tagW e (V B []) x q
  | e :: e1 :: K, [] => B (e :: e1 :: K).reverse
  | e :: e1 :: K, x :: q => if e.mask = valMask then attW e1 e (V B K) x q else tagW e (V B (e1 :: K)) x q

/-- The ways for the path given from its end. -/
def W (B : List Edge → Nat) (L : List Edge) (q : List Open) : Nat := V B L.reverse q

/-- Without a header there is one way for no transitions. -/
def bare (L : List Edge) : Nat := if L = [] then 1 else 0

/-- The sum of the ways for the paths to the ancestors. -/
def below (B : List Edge → Nat) (L : List Edge) : List Open → Nat
  | [] => 0
  | _ :: q => W B L q + below B L q

variable {B : List Edge → Nat}

theorem below_eq (L : List Edge) (q : List Open) : below B L q = sumTails (W B L) q := by
  induction q with
  | nil => rfl
  | cons n q ih =>
    show W B L q + below B L q = W B L q + sumTails (W B L) q
    rw [ih]

theorem W_tag (L : List Edge) {ed : Edge} (he : ed.mask ≠ valMask) (x : Open) (q : List Open) :
    W B (L ++ [ed]) (x :: q) = if accepts ed.key x.name then W B L q + (if ed.follow then below B L q else 0) else 0 := by
  rw [below_eq]
  unfold W
  rw [List.reverse_append]
  cases h : L.reverse with
  | nil =>
    have : L = [] := by simpa using h
    subst this
    simp only [List.reverse_cons, List.reverse_nil, List.nil_append, List.append_nil, V, if_neg he, tagW]
  | cons e1 K =>
    simp only [List.reverse_cons, List.reverse_nil, List.nil_append, List.cons_append, V, if_neg he, tagW]

theorem W_nil (x : Open) (q : List Open) : W B [] (x :: q) = 0 := rfl

theorem W_root (L : List Edge) : W B L [] = B L := by
  unfold W
  rcases h : L.reverse with _ | ⟨e, _ | ⟨e1, K⟩⟩
  · have : L = [] := by simpa using h
    rw [this]; rfl
  · have : L = [e] := by rw [← List.reverse_reverse L, h]; rfl
    rw [this]; rfl
  · have : L = (e :: e1 :: K).reverse := by rw [← h, List.reverse_reverse]
    rw [this]; rfl

theorem W_val (L : List Edge) (e1 : Edge) {ed : Edge} (he : ed.mask = valMask) (x : Open) (q : List Open) :
    W B (L ++ [e1] ++ [ed]) (x :: q) =
      sumBefore (fun as a => if accepts e1.key a.1 ∧ accepts ed.key a.2 then W B L (⟨x.name, as⟩ :: q) else 0) x.attrs := by
  unfold W
  rw [List.reverse_append, List.reverse_append]
  simp only [List.reverse_cons, List.reverse_nil, List.nil_append, List.cons_append, V, if_pos he, attW]

/-- The transitions up to a condition fulfilled by an attribute. -/
def plus (B : List Edge → Nat) (L : List Edge) (nm v : List Byte) (q : List Open) : Nat :=
  match L.reverse with
  | e :: e1 :: K => if K ≠ [] ∧ e.mask = valMask ∧ accepts e1.key nm ∧ accepts e.key v then W B K.reverse q else 0
  | _ => 0

theorem plus_tag (L : List Edge) {ed : Edge} (he : ed.mask ≠ valMask) (nm v : List Byte) (q : List Open) :
    plus B (L ++ [ed]) nm v q = 0 := by
  unfold plus
  rw [List.reverse_append]
  cases L.reverse with
  | nil => rfl
  | cons e1 K => simp [he]

theorem plus_val {L : List Edge} (hL : L ≠ []) (e1 : Edge) {ed : Edge} (he : ed.mask = valMask) (nm v : List Byte) (q : List Open) :
    plus B (L ++ [e1] ++ [ed]) nm v q = if accepts e1.key nm ∧ accepts ed.key v then W B L q else 0 := by
  unfold plus
  rw [List.reverse_append, List.reverse_append]
  simp [he, hL]

/-- What an attribute adds. -/
theorem W_att (L : List Edge) (n nm v : List Byte) (as : List (List Byte × List Byte)) (q : List Open) :
    W B L (⟨n, as ++ [(nm, v)]⟩ :: q) = W B L (⟨n, as⟩ :: q) + plus B L nm v (⟨n, as⟩ :: q) := by
  unfold plus
  have hL : L = L.reverse.reverse := by simp
  cases h : L.reverse with
  | nil =>
    rw [h] at hL
    subst hL
    rfl
  | cons ed K =>
    rw [h] at hL
    cases K with
    | nil =>
      simp only [List.reverse_cons, List.reverse_nil, List.nil_append] at hL
      subst hL
      unfold W
      simp only [List.reverse_cons, List.reverse_nil, List.nil_append, V, Nat.add_zero]
      rfl
    | cons e1 K =>
      simp only [List.reverse_cons] at hL
      by_cases he : ed.mask = valMask
      · rw [hL, W_val _ _ he, W_val _ _ he, sumBefore_snoc]
        cases K with
        | nil => simp [W_nil]
        | cons k K => simp [he]
      · rw [hL, W_tag _ he, W_tag _ he]
        simp [he]

end TW.Path
