import Verif.Proofs.Safe
import Verif.Model.Usage

/-!
# No undefined behaviour in any use of the scanner
-/

namespace TW

open M Mach Scanner

/-- The reader of the scanner. -/
abbrev SrcOk : TextScanner SrcIt → Prop := TextOk fun _ => True

/-- The scanner between calls, or after an interrupted call. -/
def UsedOk (p : Option Nat) (s : Scanner (TextScanner SrcIt)) : Prop :=
  SrcOk s.src ∧ ((p = none ∧ Core0 s.tok) ∨ ∃ mask, p = some mask ∧ Core mask s.state s.tok)

theorem UsedOk.rest {p : Option Nat} {mask : Nat} {s : Scanner (TextScanner SrcIt)} (h : UsedOk p s)
    (hc : Callable mask p) : Rest SrcOk mask s := by
  obtain ⟨h1, ⟨-, h2⟩ | ⟨mask', rfl, h2⟩⟩ := h
  · exact ⟨h1, h2.core mask _⟩
  · rcases hc with h3 | h3
    · cases h3
    · cases h3; exact ⟨h1, h2⟩

theorem Scanner.Used.ok {s0 s : Scanner (TextScanner SrcIt)} {p : Option Nat} (h : Used s0 p s)
    (h0 : UsedOk none s0) : UsedOk p s := by
  induction h with
  | init => exact h0
  | @item p s n mask r s' _ hc hr ih =>
    have := nextItem_sat (textScanner_safe srcIt_safe) n _ (ih.rest hc)
    rw [hr] at this
    exact ⟨this.1, .inl ⟨rfl, this.2⟩⟩
  | @left p s n mask s' _ hc hr ih =>
    have := nextItem_sat (textScanner_safe srcIt_safe) n _ (ih.rest hc)
    rw [hr] at this
    exact ⟨this.2.1, .inr ⟨_, rfl, this.2.2⟩⟩
  | feed fresh chunk eom _ ih =>
    unfold Scanner.feed
    split
    · exact ⟨⟨ih.1.1, trivial⟩, ih.2⟩
    · exact ⟨⟨ih.1.1, trivial⟩, ih.2⟩
  | getError _ ih => exact ih

theorem usedOk_new (e output : Enc) (em : Option (List (Nat × UChar))) (addr : Nat) (it : SrcIt) :
    UsedOk none (Scanner.mk' (TextScanner.mk' e it) output em addr) :=
  ⟨⟨rfl, trivial⟩, .inl ⟨rfl, rfl, rfl, Nat.zero_le _, .inl rfl, rfl⟩⟩

theorem Scanner.Used.item' {s0 s : Scanner (TextScanner SrcIt)} {p : Option Nat} {mask : Nat} (n : Nat)
    (r : ElementType) (h : Used s0 p s) (hc : Callable mask p) (hr : (nextItem n mask s).1 = .ok r) :
    Used s0 none (nextItem n mask s).2 := by
  generalize hx : nextItem n mask s = x at hr
  obtain ⟨x, s'⟩ := x
  cases hr
  exact h.item hc hx

theorem Scanner.Used.left' {s0 s : Scanner (TextScanner SrcIt)} {p : Option Nat} {mask : Nat} (n : Nat)
    (h : Used s0 p s) (hc : Callable mask p) (hr : (nextItem n mask s).1 = .stop .eom) :
    Used s0 (some mask) (nextItem n mask s).2 := by
  generalize hx : nextItem n mask s = x at hr
  obtain ⟨x, s'⟩ := x
  cases hr
  exact h.left hc hx

end TW
