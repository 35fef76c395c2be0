import Verif.Proofs.TagStack

/-!
# Properties C19 and C57: the tag stack
-/

namespace TW

open Spec TagStack

/-- C19. For every history of operations on names of any length and content the tag stack
returns what a stack of byte strings returns. No access is outside of the allocated block or
misaligned (that would be undefined behaviour, which is a different result). The allocator
grants blocks up to `limit` bytes, which is sufficient for the names pushed. The initial content
of the block is arbitrary. 64 iterations of the loop that doubles the size are sufficient. -/
theorem C19_stack (mem : Nat → Byte) (ops : List StackOp) (limit fuel : Nat) (hl : 2 * stackNeed ops ≤ limit)
    (h63 : limit < 2 ^ 63) (hf : 64 ≤ fuel) :
    (runOps limit fuel ops (TagStack.new mem)).1 = .ok (stackRun ops []) := by
  obtain ⟨s, h, -⟩ := runOps_run hf h63 ops (ok_new limit mem) (by show 2 * (0 + _) ≤ _; omega)
  rw [h]

example : 2 * stackNeed [.push [1, 2], .push [], .push [0, 0, 0, 0, 0, 0, 0, 0], .top, .copy fun _ => 7, .pop, .top, .empty,
    .pop, .top, .pop, .pop, .empty] ≤ 1000 ∧ stackRun [.push [1, 2], .push [], .push [0, 0, 0, 0, 0, 0, 0, 0],
      .top, .copy fun _ => 7, .pop, .top, .empty, .pop, .top, .pop, .pop, .empty] [] =
    [.nothing, .nothing, .nothing, .top (some [0, 0, 0, 0, 0, 0, 0, 0]), .nothing, .nothing, .top (some []),
     .empty false, .nothing, .top (some [1, 2]), .nothing, .nothing, .empty true] := by decide +kernel

/-- Property C57 (a `push` that fails because there is no memory leaves the stack usable) does not
hold: `m_size` has been doubled when `realloc` fails, so that the next `push` writes behind the
end of the block. Here the allocator grants only 256 bytes; after a name of 300 bytes was
refused, a name of 250 bytes is written out of bounds. -/
theorem C57_failed_push_false :
    (push 256 64 (List.replicate 300 97) (TagStack.new fun _ => 0)).1 = .stop (.throw .OutOfMem) ∧
    (push 256 64 (List.replicate 250 97) (push 256 64 (List.replicate 300 97) (TagStack.new fun _ => 0)).2).1 =
      .stop .ub := by
  decide +kernel

/-- The part of C57 that holds: a refused `push` leaves the elements that are on the stack as they
are. All operations that do not add elements or copy the stack return afterwards what they
would have returned without the refused `push`. Missing: `push` and the copy constructor. -/
theorem C57_failed_push_partial {mem : Nat → Byte} {ops ops' : List StackOp} {limit fuel : Nat} {pp : List Byte}
    {c : Cause} {s s' : TagStack} {obs : List StackObs} (hl : 2 * stackNeed ops ≤ limit) (h63 : limit < 2 ^ 63)
    (hf : 64 ≤ fuel) (h1 : runOps limit fuel ops (TagStack.new mem) = (.ok obs, s))
    (h2 : push limit fuel pp s = (.stop (.throw c), s')) (h3 : ∀ op ∈ ops', op.shrinks = true) :
    (runOps limit fuel ops' s').1 = .ok (stackRun ops' (stackEnd ops [])) := by
  obtain ⟨t, h4, h5⟩ := runOps_run hf h63 ops (ok_new limit mem) (by show 2 * (0 + _) ≤ _; omega)
  rw [h4] at h1
  cases h1
  obtain ⟨e1, e2, e3⟩ := push_same h2
  exact runOps_view ops' ⟨by rw [e1, e3]; exact h5.rep, by rw [e2, e3]; exact h5.pos⟩ h3

example : (runOps 256 64 [.push [1, 2], .push [3], .pop] (TagStack.new fun _ => 0)).1 =
      .ok [.nothing, .nothing, .nothing] ∧
    (push 256 64 (List.replicate 300 97) (runOps 256 64 [.push [1, 2], .push [3], .pop]
      (TagStack.new fun _ => 0)).2).1 = .stop (.throw .OutOfMem) ∧
    stackRun [.top, .pop, .empty] (stackEnd [.push [1, 2], .push [3], .pop] []) =
      [.top (some [1, 2]), .nothing, .empty true] := by decide +kernel

end TW
