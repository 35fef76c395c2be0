import Verif.Proofs.ResultIter
import Verif.Props.PathScopes

/-!
# Property C100: iterators on the results of an item
-/

namespace TW

open Spec TW.Path

theorem Iterators.set_set (its : Iterators) (k : Nat) (i i' : Option (Int × Bool)) : (its.set k i).set k i' = its.set k i' := by
  funext j
  unfold Iterators.set
  split <;> rfl

theorem Iterators.set_none {its : Iterators} {k : Nat} (hk : its k = none) (i : Option (Int × Bool)) : (its.set k i).set k none = its := by
  funext j
  unfold Iterators.set
  split
  case isTrue h => rw [h, hk]
  case isFalse => rfl

/-- The iterators of the model for those of the specification. -/
def asIters (its : Iterators) : Nat → Option ResIter := fun k => (its k).map Client.asIter

/-- C100 (partial): for any automaton, any state of a selector and any items, whatever a client does with the iterators of the
items - copying, assigning, comparing, incrementing the one or the other, keeping them for later items - it sees the results of
the items, each one once and in order, by whichever iterator it walks, and the state of the selector is afterwards the one after the simple
loop over all results of each item. The client has to walk to the end of the results of each item, and at a close tag
exactly one iterator of the selector must be destroyed, after the end of the results.

Missing: with an iterator destroyed earlier or with a second one destroyed at a close tag this is false,
see `C100_assigned` and `C100_copied`. -/
theorem C100_iterators_partial {n : Nat} {items : List (ElementType × List Byte)} {s s' : Sel} {rss : List (List Int)}
    (h : Sel.feed n items s = (.ok rss, s')) {cs : List (Nat × List IterOp)} {its its' : Iterators} {x : List (List Seen)}
    (hw : walkItems ((items.map (·.1)).zip rss) cs its = some (x, its')) :
    Client.run n items cs ⟨s, asIters its⟩ = (.ok x, ⟨s', asIters its'⟩) :=
  Client.items_run h hw

theorem Walk.ops_read {close : Bool} {k : Nat} {w : Walk} {i : Int × Bool} (h : w.its k = some i) (os : List IterOp) :
    w.ops close (.read k :: os) = (w.ops close os).map fun y => (.value i.1 :: y.1, y.2) := by
  rw [Walk.ops, Walk.op, h]
  rfl

theorem Walk.ops_pre {close : Bool} {k : Nat} {w : Walk} {r : Int} (h : w.its k = some (r, true)) (hc : w.closed = false) (os : List IterOp) :
    w.ops close (.pre k :: os) = Walk.ops close os { w.next.2 with its := w.next.2.its.set k (some (w.next.1, true)) } := by
  rw [Walk.ops, Walk.op, h]
  simp only [Walk.step, hc, if_true, Bool.false_eq_true, if_false, Option.map_some]
  cases Walk.ops close os { w.next.2 with its := w.next.2.its.set k (some (w.next.1, true)) } <;> rfl

theorem Walk.ops_post {k : Nat} {w : Walk} {r : Int} (h : w.its k = some (r, true)) (hc : w.closed = false) (os : List IterOp) :
    w.ops false (.post k :: os) =
      (Walk.ops false os { w.next.2 with its := w.next.2.its.set k (some (w.next.1, true)) }).map fun y => (.value r :: y.1, y.2) := by
  rw [Walk.ops, Walk.op, h]
  simp only [Walk.step, hc, if_true, Bool.false_eq_true, if_false, Option.map_some, Option.bind_some, Walk.release]
  rfl

theorem Walk.ops_last (close : Bool) {k : Nat} {its : Iterators} (hk : its k = none) :
    Walk.ops close [.read k, .destroy k] { rest := [], ended := true, closed := false, its := its.set k (some (0, true)) } =
      some ([.value 0], { rest := [], ended := true, closed := close, its }) := by
  have hget : ∀ i, (its.set k i) k = i := fun i => if_pos rfl
  cases close <;> simp [Walk.ops, Walk.op, hget, Walk.release, Iterators.set_none hk]

/-- C100: the loop with prefix increment is always allowed, and sees the results. -/
theorem C100_loop (close : Bool) (k : Nat) (its : Iterators) (hk : its k = none) (rs : List Int) :
    walkItem close rs k ((rs.map fun _ => [IterOp.read k, IterOp.pre k]).flatten ++ [.read k, .destroy k]) its =
      some (rs.map Seen.value ++ [.value 0], its) := by
  have hget : ∀ i, (its.set k i) k = i := fun i => if_pos rfl
  have key : ∀ (rs : List Int) (r : Int),
      Walk.ops close (((r :: rs).map fun _ => [IterOp.read k, IterOp.pre k]).flatten ++ [.read k, .destroy k])
        { rest := rs, ended := false, closed := false, its := its.set k (some (r, true)) } =
      some ((r :: rs).map Seen.value ++ [.value 0], { rest := [], ended := true, closed := close, its }) := by
    intro rs
    induction rs with
    | nil =>
      intro r
      show Walk.ops close (.read k :: .pre k :: [.read k, .destroy k]) _ = _
      rw [Walk.ops_read (hget _), Walk.ops_pre (hget _) rfl]
      simp only [Walk.next, Iterators.set_set]
      rw [Walk.ops_last close hk]
      rfl
    | cons r' rs ih =>
      intro r
      rw [List.map_cons, List.flatten_cons, List.append_assoc]
      show Walk.ops close (.read k :: .pre k :: (((r' :: rs).map fun _ => [IterOp.read k, IterOp.pre k]).flatten ++ [.read k, .destroy k])) _ = _
      rw [Walk.ops_read (hget _), Walk.ops_pre (hget _) rfl]
      simp only [Walk.next, Iterators.set_set]
      rw [ih r']
      rfl
  unfold walkItem
  rw [if_pos hk]
  cases rs with
  | nil =>
    simp only [Walk.next, List.map_nil, List.flatten_nil, List.nil_append]
    rw [Walk.ops_last close hk]
    cases close <;> rfl
  | cons r rs =>
    simp only [Walk.next]
    rw [key rs r]
    cases close <;> rfl

/-- C100: and so is the loop with postfix increment at other items than close tags. -/
theorem C100_post (k : Nat) (its : Iterators) (hk : its k = none) (rs : List Int) :
    walkItem false rs k ((rs.map fun _ => IterOp.post k) ++ [.read k, .destroy k]) its =
      some (rs.map Seen.value ++ [.value 0], its) := by
  have hget : ∀ i, (its.set k i) k = i := fun i => if_pos rfl
  have key : ∀ (rs : List Int) (r : Int),
      Walk.ops false (((r :: rs).map fun _ => IterOp.post k) ++ [.read k, .destroy k])
        { rest := rs, ended := false, closed := false, its := its.set k (some (r, true)) } =
      some ((r :: rs).map Seen.value ++ [.value 0], { rest := [], ended := true, closed := false, its }) := by
    intro rs
    induction rs with
    | nil =>
      intro r
      show Walk.ops false (.post k :: [.read k, .destroy k]) _ = _
      rw [Walk.ops_post (hget _) rfl]
      simp only [Walk.next, Iterators.set_set]
      rw [Walk.ops_last false hk]
      rfl
    | cons r' rs ih =>
      intro r
      rw [List.map_cons, List.cons_append, Walk.ops_post (hget _) rfl]
      simp only [Walk.next, Iterators.set_set]
      rw [ih r']
      rfl
  unfold walkItem
  rw [if_pos hk]
  cases rs with
  | nil =>
    simp only [Walk.next, List.map_nil, List.nil_append]
    rw [Walk.ops_last false hk]
    rfl
  | cons r rs =>
    simp only [Walk.next]
    rw [key rs r]
    rfl

/-- No iterators. -/
def noIters : Iterators := fun _ => none

/-- `//@b`, `//a/@b`, `//a~` -/
def iterDefs : List (List PElem.Call) :=
  [[.follow, .attribute (some [98]), .assign 1], [.follow, .tag (some [97]), .attribute (some [98]), .assign 2],
   [.follow, .tag (some [97]), .closeTag, .assign 3]]

/-- What a client does with the items of `<a b='c'/>`: for the attribute value the iterator is copied, the copy and the original are
incremented by turns and compared; some iterators are never destroyed. -/
def exClient : List (Nat × List IterOp) :=
  [(0, [.destroy 0]), (0, [.destroy 0]),
   (0, [.copy 0 1, .none 2, .none 3, .equal 0 1, .equal 0 2, .read 0, .pre 1, .read 1, .equal 0 1, .post 0, .assign 0 3, .equal 0 2, .read 0, .destroy 2]),
   (4, [.read 4, .pre 4, .read 4, .destroy 4])]

def exClientItems : List (ElementType × List Byte) :=
  [(.OpenTag, [97]), (.TagAttribName, [98]), (.TagAttribValue, [99]), (.CloseTagIm, [])]

example : (selAfter iterDefs [(.OpenTag, [114])]).map (fun s => (Sel.feed 100 exClientItems s).1) =
    some (.ok [[], [], [2, 1], [3]]) := by decide +kernel

/-- This client is one of the theorem: what it sees. -/
example : (walkItems [(.OpenTag, []), (.TagAttribName, []), (.TagAttribValue, [2, 1]), (.CloseTagIm, [3])] exClient noIters).map (·.1) =
    some [[], [], [.equal true, .equal false, .value 2, .value 1, .equal false, .value 2, .equal true, .value 0], [.value 3, .value 0]] := by
  decide +kernel

/-- The results of items by the simple loop, and the number of elements open afterwards. -/
def simpleOf (before items : List (ElementType × List Byte)) : Option (Res (List (List Int)) × Nat) :=
  (selAfter iterDefs before).map fun s => ((Sel.feed 100 items s).1, (Sel.feed 100 items s).2.scopestk.length)

/-- What a client sees, and the number of elements open afterwards. -/
def clientOf (before items : List (ElementType × List Byte)) (cs : List (Nat × List IterOp)) : Option (Res (List (List Seen)) × Nat) :=
  (selAfter iterDefs before).map fun s =>
    let r := Client.run 100 items cs ⟨s, fun _ => none⟩
    (r.1, r.2.sel.scopestk.length)

/-- C100 is false if an iterator is assigned at a close tag: `itr = sel.push(..)` assigns the iterator returned and destroys it, and `itr` is
destroyed later. Each destructor closes an element: after `<r><a></a>` the element `r` is closed also. -/
theorem C100_assigned : simpleOf [(.OpenTag, [114]), (.OpenTag, [97])] [(.CloseTag, [97])] = some (.ok [[3]], 1) ∧
    clientOf [(.OpenTag, [114]), (.OpenTag, [97])] [(.CloseTag, [97])]
      [(0, [.none 1, .assign 0 1, .destroy 0, .read 1, .pre 1, .read 1, .destroy 1])] = some (.ok [[.value 3, .value 0]], 0) :=
  ⟨by decide +kernel, by decide +kernel⟩

/-- C100 is false if an iterator is copied at a close tag. -/
theorem C100_copied : simpleOf [(.OpenTag, [114]), (.OpenTag, [97])] [(.CloseTag, [97])] = some (.ok [[3]], 1) ∧
    clientOf [(.OpenTag, [114]), (.OpenTag, [97])] [(.CloseTag, [97])]
      [(0, [.read 0, .pre 0, .read 0, .copy 0 1, .destroy 1, .destroy 0])] = some (.ok [[.value 3, .value 0]], 0) :=
  ⟨by decide +kernel, by decide +kernel⟩

/-- An iterator kept from an item before closes an element also: it belongs to the selector, not to the item. -/
theorem C100_kept : simpleOf [(.OpenTag, [114])] [(.OpenTag, [97]), (.CloseTag, [97])] = some (.ok [[], [3]], 1) ∧
    clientOf [(.OpenTag, [114])] [(.OpenTag, [97]), (.CloseTag, [97])]
      [(0, []), (1, [.read 1, .pre 1, .read 1, .destroy 1, .destroy 0])] = some (.ok [[], [.value 3, .value 0]], 0) :=
  ⟨by decide +kernel, by decide +kernel⟩

/-- With one iterator for each item, destroyed before the next, the element `r` is open. -/
example : clientOf [(.OpenTag, [114])] [(.OpenTag, [97]), (.CloseTag, [97])]
    [(0, [.destroy 0]), (1, [.read 1, .pre 1, .read 1, .destroy 1])] = some (.ok [[], [.value 3, .value 0]], 1) := by decide +kernel

end TW
