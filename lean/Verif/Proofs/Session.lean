import Verif.Proofs.NextItem
import Verif.Proofs.Calls
import Verif.Model.Session

/-!
# Sessions of `nextItem` calls run the step machine
-/

set_option linter.unusedSectionVars false

namespace TW

open Spec Mach

namespace Mach

variable {e : Enc} {f : Nat → Byte} {mask : Nat}

/-- From `A` the machine returns `r` after `m` further steps, ending in `B`. -/
def Fin (e : Enc) (f : Nat → Byte) (mask m : Nat) (A : Cfg) (r : ElementType) (B : Cfg) : Prop :=
  ∃ A1, Steps e f mask m A A1 ∧ step e f mask A1 = (some r, B)

variable {m j : Nat} {A B C : Cfg} {r r' : ElementType}

theorem Fin.later (h : Steps e f mask j A B) (h' : Fin e f mask m B r C) :
    Fin e f mask (j + m) A r C := by
  obtain ⟨A1, h1, h2⟩ := h'
  exact ⟨A1, h.trans h1, h2⟩

theorem Fin.split (h : Fin e f mask m A r C) (hs : Steps e f mask j A B) :
    j ≤ m ∧ Fin e f mask (m - j) B r C := by
  induction hs generalizing m with
  | refl A => exact ⟨Nat.zero_le _, h⟩
  | @cons j A B D h1 _ ih =>
    obtain ⟨A1, h2, h3⟩ := h
    cases h2 with
    | refl => rw [h1] at h3; cases h3
    | @cons m _ B' _ h4 h5 =>
      rw [h1] at h4
      cases h4
      obtain ⟨g1, g2⟩ := ih ⟨A1, h5, h3⟩
      exact ⟨by omega, by rw [show m + 1 - (j + 1) = m - j by omega]; exact g2⟩

theorem Fin.det {m' : Nat} {C' : Cfg} (h : Fin e f mask m A r C) (h' : Fin e f mask m' A r' C') :
    m = m' ∧ r = r' ∧ C = C' := by
  obtain ⟨A1, h1, h2⟩ := h
  obtain ⟨g1, A2, g2, g3⟩ := h'.split h1
  cases hm : m' - m with
  | zero =>
    rw [hm] at g2
    cases g2
    rw [h2] at g3
    cases g3
    exact ⟨by omega, rfl, rfl⟩
  | succ d =>
    rw [hm] at g2
    cases g2 with
    | cons h4 _ => rw [h2] at h4; cases h4

theorem Fin.same {A' : Cfg} (h : step e f mask A' = step e f mask A) (h' : Fin e f mask m A r C) :
    Fin e f mask m A' r C := by
  obtain ⟨A1, h1, h2⟩ := h'
  cases h1 with
  | refl => exact ⟨A', .refl A', by rw [h]; exact h2⟩
  | cons h3 h4 => exact ⟨A1, .cons (by rw [h]; exact h3) h4, h2⟩

/-- Clear the error code. -/
def clr (b : Bool) (A : Cfg) : Cfg := if b then { A with error := .Ok } else A

/-- The machine run with a sequence of calls. -/
inductive Runs (e : Enc) (f : Nat → Byte) : List (Nat × Bool) → Cfg → List (ElementType × Cfg) → Prop
  | nil (A : Cfg) : Runs e f [] A []
  | cons {mask : Nat} {c : Bool} {cs : List (Nat × Bool)} {A B : Cfg} {m : Nat} {r : ElementType}
      {os : List (ElementType × Cfg)} :
      Fin e f mask m A r B → Runs e f cs (clr c B) os → Runs e f ((mask, c) :: cs) A ((r, B) :: os)

theorem Runs.det {cs : List (Nat × Bool)} {os os' : List (ElementType × Cfg)}
    (h : Runs e f cs A os) (h' : Runs e f cs A os') : os = os' := by
  induction h generalizing os' with
  | nil => cases h'; rfl
  | cons h1 _ ih =>
    cases h' with
    | cons h3 h4 =>
      obtain ⟨-, rfl, rfl⟩ := h1.det h3
      rw [ih h4]

/-- Configurations between calls. -/
inductive Reach (e : Enc) (f : Nat → Byte) (A0 : Cfg) : Cfg → Prop
  | refl : Reach e f A0 A0
  | call {mask m : Nat} {c : Bool} {A B : Cfg} {r : ElementType} :
      Reach e f A0 A → Fin e f mask m A r B → Reach e f A0 (clr c B)

theorem Reach.trans {A0 A1 A2 : Cfg} (h : Reach e f A0 A1) (h' : Reach e f A1 A2) : Reach e f A0 A2 := by
  induction h' with
  | refl => exact h
  | call _ h2 ih => exact .call ih h2

/-- What every step preserves holds between calls. -/
theorem Steps.keeps {P : Cfg → Prop} (hs : ∀ A B r, P A → step e f mask A = (r, B) → P B)
    (h : Steps e f mask m A B) (hp : P A) : P B := by
  induction h with
  | refl => exact hp
  | cons h1 _ ih => exact ih (hs _ _ _ hp h1)

theorem Fin.keeps {P : Cfg → Prop} (hs : ∀ A B r, P A → step e f mask A = (r, B) → P B)
    (h : Fin e f mask m A r B) (hp : P A) : P B := by
  obtain ⟨A1, h1, h2⟩ := h
  exact hs _ _ _ (h1.keeps hs hp) h2

theorem Reach.keeps {P : Cfg → Prop} (hs : ∀ mask A B r, P A → step e f mask A = (r, B) → P B)
    (hc : ∀ c A, P A → P (clr c A)) {A0 A : Cfg} (h : Reach e f A0 A) (hp : P A0) : P A := by
  induction h with
  | refl => exact hp
  | call _ h2 ih => exact hc _ _ (h2.keeps (hs _) ih)

end Mach

variable {ι : Type} [Iter ι] {f : Nat → Byte} {S : Source ι f} {e : Enc} {mask : Nat}

/-- The scanner is between two calls at the configuration `A`. -/
structure SRel0 (S : Source ι f) (e : Enc) (s : Scanner (TextScanner ι)) (A : Cfg) : Prop where
  held : ∃ ld, Held S e ld s A
  past : Past0 S e A
  inv : Inv0 A

variable {n : Nat} {A B : Cfg} {s s' : Scanner (TextScanner ι)} {r : ElementType}

theorem SRel0.rel (h : SRel0 S e s A) (mask : Nat) : SRel S e mask s A :=
  ⟨h.held, h.past.past, h.inv.inv mask⟩

theorem SRel0.clear (h : SRel0 S e s A) :
    SRel0 S e { s with error := .Ok } { A with error := .Ok } := by
  obtain ⟨⟨ld, t, tp, rfl, h1, h2⟩, h3, h4⟩ := h
  exact ⟨⟨ld, t, tp, rfl, h1, h2⟩, h3, ⟨h4.buf, h4.pos, h4.base, h4.id, h4.val, h4.cr⟩⟩

theorem SRel0.out (h : SRel0 S e s A) : s.out = A.out := by
  obtain ⟨⟨ld, t, tp, rfl, h1, h2⟩, h3, h4⟩ := h; rfl

theorem SRel0.error (h : SRel0 S e s A) : s.error = A.error := by
  obtain ⟨⟨ld, t, tp, rfl, h1, h2⟩, h3, h4⟩ := h; rfl

theorem SRel0.tokenpos (h : SRel0 S e s A) (hw : S.wrap) : s.tokenpos = A.tokenpos % 2 ^ 64 := by
  obtain ⟨⟨ld, t, tp, rfl, h1, h2⟩, h3, h4⟩ := h; exact h2.2 hw

theorem nextItem_ok (h : SRel S e mask s A) (hr : Scanner.nextItem n mask s = (.ok r, s')) :
    ∃ m B, Fin e f mask m A r B ∧ SRel0 S e s' B := by
  have := nextItem_sim (n := n) h
  rw [hr] at this
  obtain ⟨m, A1, B, h1, h2, h3, h4, h5⟩ := this
  exact ⟨m, B, ⟨A1, h1, h2⟩, h3, h4, h5⟩

theorem nextItem_stop {er : Stop} (h : SRel S e mask s A)
    (hr : Scanner.nextItem n mask s = (.stop er, s')) : Fails S e mask n A er s' := by
  have := nextItem_sim (n := n) h
  rw [hr] at this
  exact this

/-- On a source that is completely available `nextItem` returns if the machine does. -/
theorem nextItem_fin (hS : S.Total) (h : SRel S e mask s A) {m : Nat}
    (hf : Fin e f mask m A r B) (hn : m < n) :
    ∃ s', Scanner.nextItem n mask s = (.ok r, s') ∧ SRel0 S e s' B := by
  generalize hr : Scanner.nextItem n mask s = x
  obtain ⟨x, s'⟩ := x
  cases x with
  | ok r' =>
    obtain ⟨m', B', h1, h2⟩ := nextItem_ok h hr
    obtain ⟨-, rfl, rfl⟩ := hf.det h1
    exact ⟨s', rfl, h2⟩
  | stop er =>
    obtain ⟨m', A', h1, h2, h3, -⟩ := nextItem_stop h hr
    exfalso
    by_cases hfu : er = .fuel
    · have := h2 hfu
      have := (hf.split h1).1
      omega
    · obtain ⟨-, -, p, -, h4⟩ := h3 hfu
      rcases h4 with h4 | h4
      · exact h4 (hS _).1
      · exact h4 (hS _).2

/-- On a source that is completely available `nextItem` stops only for lack of fuel. -/
theorem nextItem_total {er : Stop} (hS : S.Total) (h : SRel S e mask s A)
    (hr : Scanner.nextItem n mask s = (.stop er, s')) : er = .fuel := by
  obtain ⟨m', A', h1, h2, h3, -⟩ := nextItem_stop h hr
  apply Decidable.byContradiction
  intro hfu
  obtain ⟨-, -, p, -, h4⟩ := h3 hfu
  rcases h4 with h4 | h4
  · exact h4 (hS _).1
  · exact h4 (hS _).2

/-- The configuration of a new scanner. -/
def Cfg.new (output : Enc) (em : Option (List (Nat × UChar))) (addr : Nat) : Cfg :=
  { state := .START, error := .Ok, src := 0, entityMap := em, bufAddr := addr, out := [], output,
    tokenpos := 0, tok := TokState.new }

theorem SRel0.new {it : ι} (hr : S.R it 0) (hs : S.RS it) (output : Enc)
    (em : Option (List (Nat × UChar))) (addr : Nat) :
    SRel0 S e (Scanner.mk' (TextScanner.mk' e it) output em addr) (Cfg.new output em addr) := by
  refine ⟨⟨.no, TextScanner.mk' e it, 0, rfl, ?_, fun _ _ => rfl, fun _ => rfl⟩, .inl ?_, ?_⟩
  · refine ⟨rfl, hs, ⟨0, Nat.zero_le _, ⟨rfl, rfl, hr, ?_, ?_⟩, trivial, ?_⟩, .inl rfl⟩
    · intro i hi; omega
    · intro i hi; omega
    · intro h; exact absurd rfl h
  · intro i hi; exact absurd hi (Nat.not_lt_zero i)
  · exact ⟨rfl, rfl, Nat.zero_le _, .inl rfl, rfl, rfl⟩

/-- What is seen of a configuration. -/
def Mach.obs (showPos : Bool) (x : ElementType × Cfg) : Obs :=
  { type := x.1, item := x.2.out, error := x.2.error,
    pos := if showPos then some (x.2.tokenpos % 2 ^ 64) else none }

theorem SRel0.observe {sp : Bool} (h : SRel0 S e s A) (hw : sp = true → S.wrap) :
    Scanner.observe sp r s = Mach.obs sp (r, A) := by
  unfold Scanner.observe Mach.obs
  rw [h.out, h.error]
  cases sp with
  | false => rfl
  | true => rw [h.tokenpos (hw rfl)]

theorem SRel0.clr (h : SRel0 S e s A) (c : Bool) :
    ∃ s', Scanner.clearIf c s = (.ok (), s') ∧ SRel0 S e s' (Mach.clr c A) := by
  cases c with
  | false => exact ⟨s, rfl, h⟩
  | true => exact ⟨_, rfl, h.clear⟩

theorem session_runs {sp : Bool} (hS : S.Total) (hw : sp = true → S.wrap) {cs : List (Nat × Bool)}
    {os : List (ElementType × Cfg)} (hr : Runs e f cs A os) :
    ∃ N, ∀ n, N ≤ n → ∀ s, SRel0 S e s A →
      ∃ s', Scanner.session n sp cs s = (.ok (os.map (Mach.obs sp)), s') := by
  induction hr with
  | nil A => exact ⟨0, fun n _ s _ => ⟨s, rfl⟩⟩
  | @cons mask c cs A B m r os h1 _ ih =>
    obtain ⟨N, ih⟩ := ih
    refine ⟨max N (m + 1), fun n hn s h => ?_⟩
    obtain ⟨s1, h2, h3⟩ := nextItem_fin (n := n) hS (h.rel mask) h1 (by omega)
    obtain ⟨s2, h4, h5⟩ := h3.clr c
    obtain ⟨s3, h6⟩ := ih n (by omega) s2 h5
    refine ⟨s3, ?_⟩
    unfold Scanner.session
    rw [M.bind_ok h2, M.bind_ok (M.get_run _), M.bind_ok h4, M.bind_ok h6, h3.observe hw]
    rfl

theorem session_ok {sp : Bool} (hw : sp = true → S.wrap) {cs : List (Nat × Bool)} :
    ∀ {A : Cfg} {s s' : Scanner (TextScanner ι)} {l : List Obs}, SRel0 S e s A →
    Scanner.session n sp cs s = (.ok l, s') → ∃ os, Runs e f cs A os ∧ l = os.map (Mach.obs sp) ∧
      ∃ A', SRel0 S e s' A' ∧ Reach e f A A' := by
  induction cs with
  | nil =>
    intro A s s' l h hs
    cases hs
    exact ⟨[], .nil A, rfl, A, h, .refl⟩
  | cons mc cs ih =>
    intro A s s' l h hs
    obtain ⟨mask, c⟩ := mc
    unfold Scanner.session at hs
    generalize hr : Scanner.nextItem n mask s = x at hs
    obtain ⟨x, s1⟩ := x
    cases x with
    | stop er => rw [M.bind_stop hr] at hs; cases hs
    | ok r =>
      obtain ⟨m, B, h1, h2⟩ := nextItem_ok (h.rel mask) hr
      obtain ⟨s2, h4, h5⟩ := h2.clr c
      rw [M.bind_ok hr, M.bind_ok (M.get_run _), M.bind_ok h4, M.bind_run] at hs
      generalize hx : Scanner.session n sp cs s2 = x at hs
      obtain ⟨x, s3⟩ := x
      cases x with
      | stop er => cases hs
      | ok l' =>
        cases hs
        obtain ⟨os, h6, rfl, A', h7, h8⟩ := ih h5 hx
        exact ⟨(r, B) :: os, .cons h1 h6, by rw [h2.observe hw]; rfl, A', h7,
          (Reach.call .refl h1).trans h8⟩

end TW
