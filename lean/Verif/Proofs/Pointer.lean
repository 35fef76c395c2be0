import Verif.Proofs.Positions
import Verif.Proofs.Skips

/-!
# The machine on a null terminated array
-/

namespace TW

open Spec

/-- Size of the code units of an encoding in bytes. -/
def Spec.unitSize : Enc → Nat
  | .utf8 | .isolatin _ => 1
  | .utf16 _ | .ucs2 _ => 2
  | .ucs4 _ => 4

namespace Mach

variable {e : Enc} {f : Nat → Byte} {mask L : Nat}

/-- `k` is the start of a character. -/
def Bnd (e : Enc) (f : Nat → Byte) (k : Nat) : Prop := ∃ n, offs e f 0 n = k

theorem Bnd.next {k : Nat} (h : Bnd e f k) : Bnd e f (k + ulen e f k) := by
  obtain ⟨n, rfl⟩ := h
  exact ⟨n + 1, rfl⟩

theorem Bnd.le {k : Nat} (h : Bnd e f k) (hL : Bnd e f L) (hk : k < L) : k + ulen e f k ≤ L := by
  obtain ⟨n, rfl⟩ := h
  obtain ⟨m, rfl⟩ := hL
  by_cases hm : m ≤ n
  · obtain ⟨d, rfl⟩ := Nat.exists_eq_add_of_le hm
    rw [offs_add] at hk
    have := offs_le (e := e) (f := f) (offs e f 0 m) d
    omega
  · obtain ⟨d, rfl⟩ := Nat.exists_eq_add_of_le (show n + 1 ≤ m by omega)
    rw [offs_add]
    exact offs_le (e := e) (f := f) (offs e f 0 (n + 1)) d

theorem Ends.ulen (h : Ends f L) : ulen e f L = unitSize e := by
  have h0 := h L (Nat.le_refl _)
  have h1 := h (L + 1) (by omega)
  cases e <;> simp [Spec.ulen, unitSize, utf8Len, unit16, h0, h1]

/-- The source is at a character of the text or at its end. -/
def Tight (e : Enc) (f : Nat → Byte) (L : Nat) (A : Cfg) : Prop :=
  (A.src ≤ L ∧ Bnd e f A.src) ∨ A.state = .EXIT ∨ Lost L A

theorem Tight.step {A B : Cfg} {r : Option ElementType} (hf : Ends f L) (hL : Bnd e f L) (hi : Inv mask A)
    (ht : Tight e f L A) (h : step e f mask A = (r, B)) : Tight e f L B := by
  rcases ht with ⟨h1, h2⟩ | h1 | h1
  · by_cases hlt : A.src < L
    · have hsh : B.src = A.src ∨ B.src = A.src + Spec.ulen e f A.src := by
        rcases step_shape h with ⟨-, h | h⟩ | ⟨-, h⟩ | ⟨-, h⟩
        · exact .inl h
        · exact .inr h.1
        · exact .inr h
        · exact .inl h
      rcases hsh with hs | hs
      · exact .inl (by rw [hs]; exact ⟨h1, h2⟩)
      · exact .inl (by rw [hs]; exact ⟨h2.le hL hlt, h2.next⟩)
    · rcases step_stays hf hi (by omega) h with hs | ⟨-, hs⟩ | hs
      · exact .inl (by rw [hs]; exact ⟨h1, h2⟩)
      · exact .inr (.inl hs)
      · exact .inr (.inr hs)
  · exact .inr (.inl (step_exit h1 h).1)
  · obtain ⟨B', h3, h4⟩ := h1.step (e := e) (mask := mask) hf
    rw [h] at h3
    cases h3
    exact .inr (.inr h4)

theorem Tight.steps {A B : Cfg} {m : Nat} (hf : Ends f L) (hL : Bnd e f L) (h : Steps e f mask m A B) :
    Inv mask A → Tight e f L A → Tight e f L B := by
  induction h with
  | refl => exact fun _ h => h
  | cons h1 _ ih => exact fun hi ht => ih (step_inv hi h1) (ht.step hf hL hi h1)

theorem Tight.clr {A : Cfg} (h : Tight e f L A) (c : Bool) : Tight e f L (clr c A) := by
  unfold Mach.clr
  split <;> exact h

end Mach

open Mach

section

variable {e : Enc} {pre mem : List Byte} {hb : ∀ b ∈ mem, b < 256} {mask n L : Nat}

/-- Nothing lacks at a configuration at a character of the text. -/
theorem no_lack {A : Cfg} (hf : Ends (strm mem) L) (hL : Bnd e (strm mem) L)
    (hm : mem.length = L + unitSize e) (ht : Tight e (strm mem) L A) (hl : ¬ Lost L A) :
    ¬ Lack (ptrAt pre mem hb) e A := by
  rintro ⟨hx, p, hp, h⟩
  rcases ht with ⟨h1, h2⟩ | h1 | h1
  · have : A.src + p < mem.length := by
      by_cases hlt : A.src < L
      · have := h2.le hL hlt
        omega
      · have hs : A.src = L := by omega
        rw [hs, hf.ulen] at hp
        omega
    rcases h with h | h <;> exact h this
  · exact hx h1
  · exact hl h1

/-- A call for that the machine returns never leaves the array. -/
theorem ptr_next {A B : Cfg} {s : Scanner (TextScanner CharPtr)} {m : Nat} {r : ElementType}
    (hf : Ends (strm mem) L) (hL : Bnd e (strm mem) L) (hm : mem.length = L + unitSize e)
    (ht : Tight e (strm mem) L A) (h : SRel (ptrAt pre mem hb) e mask s A)
    (hfin : Fin e (strm mem) mask m A r B) :
    (∃ s', Scanner.nextItem n mask s = (.ok r, s') ∧ SRel0 (ptrAt pre mem hb) e s' B) ∨
    (n ≤ m ∧ ∃ s', Scanner.nextItem n mask s = (.stop .fuel, s')) := by
  generalize hr : Scanner.nextItem n mask s = x
  obtain ⟨x, s'⟩ := x
  cases x with
  | ok r' =>
    obtain ⟨m', B', h1, h2⟩ := nextItem_ok h hr
    obtain ⟨-, rfl, rfl⟩ := hfin.det h1
    exact .inl ⟨s', rfl, h2⟩
  | stop er =>
    obtain ⟨m', A', h1, h2, h3, -⟩ := nextItem_stop h hr
    by_cases hfu : er = .fuel
    · refine .inr ⟨?_, s', by rw [hfu]⟩
      have := h2 hfu
      have := (hfin.split h1).1
      omega
    · exfalso
      have hl : ¬ Lost L A' := fun hl => hl.never hf (hfin.split h1).2
      exact no_lack hf hL hm (ht.steps hf hL h1 h.inv) hl (h3 hfu).2

/-- The calls for that the machine returns never leave the array. -/
theorem ptr_session {sp : Bool} (hf : Ends (strm mem) L) (hL : Bnd e (strm mem) L)
    (hm : mem.length = L + unitSize e) {cs : List (Nat × Bool)} {A : Cfg}
    {os : List (ElementType × Cfg)} (hr : Runs e (strm mem) cs A os) :
    ∃ N, ∀ n s, SRel0 (ptrAt pre mem hb) e s A → Tight e (strm mem) L A →
      (∃ s', Scanner.session n sp cs s = (.ok (os.map (Mach.obs sp)), s')) ∨
      (n < N ∧ ∃ s', Scanner.session n sp cs s = (.stop .fuel, s')) := by
  induction hr with
  | nil A => exact ⟨0, fun n s _ _ => .inl ⟨s, rfl⟩⟩
  | @cons mask c cs A B m r os h1 _ ih =>
    obtain ⟨N, ih⟩ := ih
    refine ⟨max N (m + 1), fun n s h ht => ?_⟩
    unfold Scanner.session
    rcases ptr_next (n := n) hf hL hm ht (h.rel mask) h1 with ⟨s1, h2, h3⟩ | ⟨h2, s1, h3⟩
    · obtain ⟨s2, h4, h5⟩ := h3.clr c
      have htB : Tight e (strm mem) L B := by
        obtain ⟨C, c1, c2⟩ := h1
        exact (ht.steps hf hL c1 (h.inv.inv _)).step hf hL (steps_inv c1 (h.inv.inv _)) c2
      rw [M.bind_ok h2, M.bind_ok (M.get_run _), M.bind_ok h4]
      rcases ih n s2 h5 (htB.clr c) with ⟨s3, h6⟩ | ⟨h6, s3, h7⟩
      · left
        refine ⟨s3, ?_⟩
        rw [M.bind_ok h6, h3.observe fun _ => trivial]
        rfl
      · exact .inr ⟨by omega, s3, by rw [M.bind_stop h7]⟩
    · exact .inr ⟨by omega, s1, by rw [M.bind_stop h3]⟩

theorem strm_pad (doc : List Byte) (u : Nat) : strm (doc ++ List.replicate u 0) = strm doc := by
  funext k
  simp only [strm, List.getD_eq_getElem?_getD]
  by_cases h : k < doc.length
  · rw [List.getElem?_append_left h]
  · rw [List.getElem?_append_right (by omega), List.getElem?_eq_none (l := doc) (by omega),
      List.getElem?_replicate]
    split <;> rfl

end

end TW
