import Verif.Spec.Items
import Verif.Model.Session

/-!
# Specification: the items a program gets
-/

namespace TW

open Spec

/-- The item `o` of a program that reads the document: it is an item with text, was asked for with the
element mask, and no error is reported before it. -/
def Delivered (e output : Enc) (em : Option (List (Nat × UChar))) (addr : Nat) (doc : List Byte) (o : Obs) : Prop :=
  ∃ n calls obs s i mask c, Scanner.session n true calls (oneScanner e output em addr doc) = (.ok obs, s) ∧
    obs[i]? = some o ∧ calls[i]? = some (mask, c) ∧ mask.testBit o.type.toNat = true ∧ kindsOf o.type ≠ [] ∧
    ∀ x ∈ obs.take i, x.type ≠ .ErrorOccurred

theorem Delivered.of {e output : Enc} {em : Option (List (Nat × UChar))} {addr : Nat} {doc : List Byte} {o : Obs}
    (n i : Nat) {calls : List (Nat × Bool)} {obs : List Obs} {x : Nat × Bool}
    (h : (Scanner.session n true calls (oneScanner e output em addr doc)).1 = .ok obs)
    (ho : obs[i]? = some o) (hc : calls[i]? = some x) (hm : x.1.testBit o.type.toNat = true) (hk : kindsOf o.type ≠ [])
    (he : ∀ x ∈ obs.take i, x.type ≠ .ErrorOccurred) : Delivered e output em addr doc o :=
  ⟨n, calls, obs, (Scanner.session n true calls (oneScanner e output em addr doc)).2, i, x.1, x.2, Prod.ext h rfl, ho, hc,
    hm, hk, he⟩

/-- What the map of the user has for the address of the buffer. -/
def found (em : Option (List (Nat × UChar))) (addr : Nat) : Option UChar :=
  em.bind fun m => (m.find? fun x => x.1 = addr).map (·.2)

end TW
