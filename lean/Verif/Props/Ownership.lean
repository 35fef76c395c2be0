import Verif.Proofs.Ownership

/-!
# Property C70: each block of memory is released exactly once

Full statement: in every program that constructs, copies, assigns, uses and destroys objects of a class of the library
that owns memory, no released memory is used, no block is released twice, and all blocks are released with their
objects. It is false for assignments (the classes declare no assignment operator), for `IStreamIterator` objects
created without stream, and for copies of a `StaticBuffer` with memory of the caller.
-/

namespace TW

open Own

/-- The construction of an object that owns memory. -/
def owner : Cls → Nat → List Own.Op
  | .istreamIterator, x => [.construct x .alloc]
  | .staticBuffer, x => [.construct x .alloc]
  | .tagStack, x => [.construct x .dflt]
  | .state, x => [.construct x .dflt, .renew x]

/-- For each of the classes: two objects, an assignment, and the destruction of both. A block is released twice. For
`TagStack` this is what the assignment of an `XMLPrinter` does. -/
theorem C70_assign_false : ∀ c : Cls,
    (Own.run c (owner c 0 ++ owner c 1 ++ [.assign 0 1, .destroy 1, .destroy 0]) .start).1 = .stop .ub := by
  intro c
  cases c <;> decide +kernel

/-- For each of the classes: an object assigned from another one is used after the other one is gone. -/
theorem C70_use_false : ∀ c : Cls,
    (Own.run c (owner c 0 ++ owner c 1 ++ [.assign 0 1, .destroy 1, .use 0]) .start).1 = .stop .ub := by
  intro c
  cases c <;> decide +kernel

/-- An `IStreamIterator` made with the default constructor is destroyed. It is a member of a scanner created without
source. -/
theorem C70_default_false : (Own.run .istreamIterator [.construct 0 .dflt, .destroy 0] .start).1 = .stop .ub := by
  decide +kernel

/-- A copy of a `StaticBuffer` on memory of the caller is never released. -/
theorem C70_leak_false :
    Own.run .staticBuffer [.construct 0 .extern, .copy 1 0, .destroy 1, .destroy 0] .start =
      (.ok (), { heap := { live := [0], next := 1 }, vars := [] }) := by
  decide +kernel

/-- In programs without assignments, and without `IStreamIterator` objects made by the default constructor, there
is no undefined behaviour. If there are no buffers on memory of the caller, all memory is released when there is no
object left. -/
theorem C70_released_partial (c : Cls) (ops : List Own.Op) (ha : ∀ x y, .assign x y ∉ ops)
    (hd : ∀ x, c = .istreamIterator → .construct x .dflt ∉ ops) :
    ∃ p, Own.run c ops .start = (.ok (), p) ∧
      ((∀ x, .construct x .extern ∉ ops) → p.vars = [] → p.heap.live = []) := by
  by_cases hx : ∀ x, Own.Op.construct x .extern ∉ ops
  · obtain ⟨p, h1, h2⟩ := run_ok (c := c) (nx := true) ops (Inv.start c true) (by
      intro op ho
      cases op with
      | assign x y => exact ha x y ho
      | construct x k => exact ⟨fun hc hk => hd x hc (hk ▸ ho), fun _ hk => hx x (hk ▸ ho)⟩
      | _ => trivial)
    refine ⟨p, h1, fun _ hv => List.eq_nil_iff_forall_not_mem.2 fun i hi => ?_⟩
    have := h2.all rfl i
    rw [hv] at this
    exact absurd (List.count_pos_iff.2 hi) (by rw [← this]; exact Nat.lt_irrefl 0)
  · obtain ⟨p, h1, -⟩ := run_ok (c := c) (nx := false) ops (Inv.start c false) (by
      intro op ho
      cases op with
      | assign x y => exact ha x y ho
      | construct x k => exact ⟨fun hc hk => hd x hc (hk ▸ ho), (nomatch ·)⟩
      | _ => trivial)
    exact ⟨p, h1, fun h => absurd h hx⟩

/-- A program with copies and growing stacks. -/
example : Own.run .tagStack [.construct 0 .dflt, .renew 0, .copy 1 0, .renew 1, .use 1, .destroy 0, .copy 2 1, .renew 2,
      .destroy 1, .use 2, .destroy 2] .start = (.ok (), { heap := { live := [], next := 6 }, vars := [] }) := by
  decide +kernel

end TW
