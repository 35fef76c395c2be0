import Verif.Proofs.Copies
import Verif.Proofs.Printer

/-!
# The machine on another stream

A step of the machine depends on the character at its source only.
-/

namespace TW

open Spec

namespace Mach

variable {e : Enc} {f g : Nat → Byte} {mask d : Nat} {P : Prop}

/-- The character at `j` of `f` is the one at `k` of `g`. -/
structure Look (e : Enc) (f : Nat → Byte) (j : Nat) (g : Nat → Byte) (k : Nat) : Prop where
  len : ulen e f j = ulen e g k
  val : uval e f j = uval e g k
  asc : uasc e f j = uasc e g k
  bytes : slice f j (ulen e g k) = slice g k (ulen e g k)

theorem Look.of {j k : Nat} (h : ∀ i, i < 8 → f (j + i) = g (k + i)) : Look e f j g k := by
  have e1 := uchar_congr e (f := f) (g := fun i => g (i - j + k)) (k := j) (by
    intro i hi
    show f (j + i) = g (j + i - j + k)
    rw [h i hi, show j + i - j + k = k + i by omega])
  have sh : ∀ (l i : Nat), (fun i => g (i - j + k)) (j + i) = g (k + i) := by
    intro l i
    show g (j + i - j + k) = g (k + i)
    rw [show j + i - j + k = k + i by omega]
  have h0 : (fun i => g (i - j + k)) j = g k := sh 0 0
  have h1 : (fun i => g (i - j + k)) (j + 1) = g (k + 1) := sh 0 1
  have h2 : (fun i => g (i - j + k)) (j + 2) = g (k + 2) := sh 0 2
  have h3 : (fun i => g (i - j + k)) (j + 3) = g (k + 3) := sh 0 3
  have hs : ∀ n, slice (fun i => g (i - j + k)) (j + 1) n = slice g (k + 1) n := by
    intro n
    unfold slice
    apply List.map_congr_left
    intro i _
    show g (j + 1 + i - j + k) = g (k + 1 + i)
    rw [show j + 1 + i - j + k = k + 1 + i by omega]
  generalize (fun i => g (i - j + k)) = g' at e1 sh h0 h1 h2 h3 hs
  have hv : uval e g' j = uval e g k := by
    cases e with
    | utf8 => simp only [uval, utf8Val, h0, hs]
    | utf16 be => cases be <;> simp [uval, unit16, h0, h1, h2, h3, Nat.add_assoc]
    | ucs2 be => cases be <;> simp [uval, unit16, h0, h1]
    | ucs4 be => cases be <;> simp [uval, h0, h1, h2, h3]
    | isolatin p => simp only [uval, h0]
  have hl : ulen e g' j = ulen e g k := by
    cases e with
    | utf16 be => cases be <;> simp [ulen, unit16, h0, h1]
    | _ => simp [ulen, h0]
  refine ⟨e1.1.trans hl, e1.2.1.trans hv, e1.2.2.trans ?_, ?_⟩
  · cases e <;> simp [uasc, h0, hv]
  · unfold slice
    apply List.map_congr_left
    intro i hi
    have := ulen_le e g k
    exact h i (by simp at hi; omega)

/-- The configurations differ in the source by `d`. If `P` nothing is said about the position of the token. -/
structure Moved (d : Nat) (P : Prop) (A B : Cfg) : Prop where
  eq : A = { B with src := B.src + d, tokenpos := A.tokenpos }
  tp : P ∨ A.tokenpos = B.tokenpos + d

theorem Moved.elim {A B : Cfg} (h : Moved d P A B) : ∃ tp, A = { B with src := B.src + d, tokenpos := tp } ∧
    (P ∨ tp = B.tokenpos + d) := ⟨_, h.eq, h.tp⟩

theorem Moved.tokTo {A B : Cfg} (h : Moved d P A B) (q : TokState → TokState) :
    Moved d P (Mach.tokTo q A) (Mach.tokTo q B) := by
  obtain ⟨tp, rfl, h1⟩ := h.elim
  exact ⟨rfl, h1⟩

theorem Moved.trans {A B A' : Cfg} {sd : Elem} {rt : ElementType} {x : Option ElementType} (h : Moved d P A B)
    (hl : Look e f A.src g B.src) (ha : Mach.trans e f sd rt A = (x, A')) :
    ∃ B', Mach.trans e g sd rt B = (x, B') ∧ Moved d P A' B' := by
  obtain ⟨tp, rfl, h1⟩ := h.elim
  have hc : Mach.cls e f { B with src := B.src + d, tokenpos := tp } = Mach.cls e g B := by
    unfold Mach.cls; rw [hl.asc]
  unfold Mach.trans at ha ⊢
  simp only [hc] at ha ⊢
  split at ha
  · cases ha
    refine ⟨_, rfl, ?_, h1⟩
    have := hl.len
    simp only at this
    simp only [adv, idTo, Mach.tokTo, this, Nat.add_right_comm]
  · split at ha
    · cases ha; exact ⟨_, rfl, rfl, h1⟩
    · split at ha <;> cases ha <;> exact ⟨_, rfl, rfl, h1⟩

theorem Moved.tokStep {A B A' : Cfg} {isTok : Cc → Bool} {x : Option ElementType} (h : Moved d P A B)
    (hl : Look e f A.src g B.src) (ha : Mach.tokStep e f isTok A = (x, A')) :
    ∃ B', Mach.tokStep e g isTok B = (x, B') ∧ Moved d P A' B' := by
  obtain ⟨tp, rfl, h1⟩ := h.elim
  have hc : Mach.cls e f { B with src := B.src + d, tokenpos := tp } = Mach.cls e g B := by
    unfold Mach.cls; rw [hl.asc]
  have hc' : Mach.asc e f { B with src := B.src + d, tokenpos := tp } = Mach.asc e g B := by
    unfold Mach.asc; rw [hl.asc]
  have hlen : ulen e f (B.src + d) = ulen e g B.src := hl.len
  have ad : ∀ {C D : Cfg}, C = { D with src := D.src + d, tokenpos := C.tokenpos } → D.src = B.src →
      C.tokenpos = tp → D.tokenpos = B.tokenpos → Moved d P (adv e f C) (adv e g D) := by
    intro C D h2 h3 h4 h5
    refine ⟨?_, ?_⟩
    · have hs : C.src = B.src + d := by rw [h2]; exact congrArg (· + d) h3
      have hst : ulen e f C.src = ulen e g D.src := by rw [hs, h3, hlen]
      simp only [adv, hst]
      rw [h2]
      simp only [Nat.add_right_comm]
    · show P ∨ C.tokenpos = D.tokenpos + d
      rw [h4, h5]
      exact h1
  unfold Mach.tokStep at ha ⊢
  simp only [hc, hc'] at ha ⊢
  have en : ∀ name, entityChar { B with src := B.src + d, tokenpos := tp } name = entityChar B name := fun _ => rfl
  cases hid : B.tok.id <;> simp only [hid] at ha ⊢
  · cases ha; exact ⟨_, rfl, rfl, .inr rfl⟩
  · cases ha; exact ⟨_, rfl, rfl, h1⟩
  · cases ha; exact ⟨_, rfl, rfl, h1⟩
  · split at ha <;> rename_i hx <;> cases ha
    · rw [if_pos hx]; exact ⟨_, rfl, (ad (C := { B with src := B.src + d, tokenpos := tp }) (D := B) rfl rfl rfl rfl).tokTo _⟩
    · rw [if_neg hx]; exact ⟨_, rfl, rfl, h1⟩
  · split at ha <;> rename_i hx <;> cases ha
    · rw [if_pos hx]; exact ⟨_, rfl, (ad (C := { B with src := B.src + d, tokenpos := tp }) (D := B) rfl rfl rfl rfl).tokTo _⟩
    · rw [if_neg hx]; exact ⟨_, rfl, rfl, h1⟩
  · split at ha <;> rename_i hx
    · rw [if_pos hx]
      split at ha <;> rename_i hy <;> cases ha
      · rw [if_pos hy]; exact ⟨_, rfl, rfl, h1⟩
      · rw [if_neg hy]; exact ⟨_, rfl, ad rfl rfl rfl rfl⟩
    · rw [if_neg hx]
      split at ha <;> rename_i hy <;> cases ha
      · rw [if_pos hy]; exact ⟨_, rfl, rfl, h1⟩
      · rw [if_neg hy]
        refine ⟨_, rfl, ?_⟩
        have key : ∀ C D : Cfg, Moved d P C D →
            Moved d P (if C.tok.pos = 16 then fallback C else C) (if D.tok.pos = 16 then fallback D else D) := by
          intro C D hD
          obtain ⟨tp, rfl, h2⟩ := hD.elim
          by_cases hp : D.tok.pos = 16
          · rw [if_pos hp, if_pos hp]; exact ⟨rfl, h2⟩
          · rw [if_neg hp, if_neg hp]; exact ⟨rfl, h2⟩
        exact key _ _ (ad rfl rfl rfl rfl)
  · split at ha <;> rename_i hx
    · rw [if_pos hx]
      cases ha
      exact ⟨_, rfl, ad rfl rfl rfl rfl⟩
    · rw [if_neg hx]
      split at ha <;> rename_i hy
      · rw [if_pos hy]
        rw [en] at ha
        split at ha <;> cases ha
        · exact ⟨_, rfl, ad rfl rfl rfl rfl⟩
        · exact ⟨_, rfl, rfl, h1⟩
      · rw [if_neg hy]
        cases ha
        exact ⟨_, rfl, rfl, h1⟩
  · split at ha <;> rename_i hx
    · rw [if_pos hx]
      cases ha
      refine ⟨_, rfl, ?_⟩
      have hcp : copied e f B.output (B.src + d) = copied e g B.output B.src := by
        have e1 := hl.bytes
        have e2 := hl.val
        simp only at e1 e2
        unfold copied
        rw [hlen, e1, e2]
      unfold charStep
      rw [hc']
      split
      · exact ad rfl rfl rfl rfl
      · split
        · simp only
          split
          · exact ad rfl rfl rfl rfl
          · exact ad rfl rfl rfl rfl
        · simp only [hcp]
          exact ad rfl rfl rfl rfl
    · rw [if_neg hx]
      split at ha <;> rename_i hy <;> cases ha
      · rw [if_pos hy]; exact ⟨_, rfl, (ad (C := { B with src := B.src + d, tokenpos := tp }) (D := B) rfl rfl rfl rfl).tokTo _⟩
      · rw [if_neg hy]; exact ⟨_, rfl, rfl, h1⟩

theorem Moved.step {A B A' : Cfg} {x : Option ElementType} (h : Moved d P A B) (hl : Look e f A.src g B.src)
    (ha : step e f mask A = (x, A')) : ∃ B', step e g mask B = (x, B') ∧ Moved d P A' B' := by
  obtain ⟨tp, rfl, h1⟩ := h.elim
  have hc : Mach.cls e f { B with src := B.src + d, tokenpos := tp } = Mach.cls e g B := by
    unfold Mach.cls; rw [hl.asc]
  have hc' : Mach.asc e f { B with src := B.src + d, tokenpos := tp } = Mach.asc e g B := by
    unfold Mach.asc; rw [hl.asc]
  have ad : Moved d P (adv e f { B with src := B.src + d, tokenpos := tp }) (adv e g B) := by
    refine ⟨?_, h1⟩
    have := hl.len
    simp only at this
    simp only [adv, this, Nat.add_right_comm]
  unfold Mach.step at ha ⊢
  simp only [hc] at ha ⊢
  split at ha
  · exact h.trans hl ha
  · split at ha
    · split at ha <;> rename_i hd
      · rw [if_pos hd]; exact h.trans hl ha
      · rw [if_neg hd]
        split at ha <;> rename_i hm
        · rw [if_pos hm]; exact h.tokStep hl ha
        · rw [if_neg hm]
          split at ha <;> rename_i ht
          · rw [if_pos ht]; cases ha; exact ⟨_, rfl, ad⟩
          · rw [if_neg ht]; exact h.trans hl ha
    · split at ha
      · unfold keyStep at ha ⊢
        simp only [hc, hc'] at ha ⊢
        split at ha <;> rename_i hd
        · rw [if_pos hd]; exact h.trans hl ha
        · rw [if_neg hd]
          split at ha
          · cases ha
            refine ⟨_, rfl, ?_⟩
            split <;> exact ⟨rfl, h1⟩
          · split at ha <;> rename_i hk
            · rw [if_pos hk]
              cases ha
              exact ⟨_, rfl, ad.tokTo _⟩
            · rw [if_neg hk]
              cases ha
              exact ⟨_, rfl, rfl, h1⟩
      · split at ha <;> rename_i hn
        · rw [if_pos hn]
          split at ha <;> cases ha <;> exact ⟨_, rfl, rfl, .inr rfl⟩
        · rw [if_neg hn]
          exact Moved.trans (A := { B with src := B.src + d, tokenpos := B.src + d, out := [] })
            (B := { B with tokenpos := B.src, out := [] }) ⟨rfl, .inr rfl⟩ hl ha

/-- The streams are the same behind the first `d` bytes of `f`. -/
def Behind (d : Nat) (f g : Nat → Byte) : Prop := ∀ k, f (k + d) = g k

theorem Behind.look (h : Behind d f g) (k : Nat) : Look e f (k + d) g k :=
  .of fun i _ => by rw [← h (k + i), Nat.add_right_comm]

theorem Moved.src {A B : Cfg} (h : Moved d P A B) : A.src = B.src + d := by rw [h.eq]

theorem Moved.steps {A B A' : Cfg} {m : Nat} (hg : Behind d f g) (h : Moved d P A B) (ha : Steps e f mask m A A') :
    ∃ B', Steps e g mask m B B' ∧ Moved d P A' B' := by
  induction ha generalizing B with
  | refl => exact ⟨_, .refl _, h⟩
  | cons h1 _ ih =>
    obtain ⟨B1, h2, h3⟩ := h.step (h.src ▸ hg.look _) h1
    obtain ⟨B2, h4, h5⟩ := ih h3
    exact ⟨B2, .cons h2 h4, h5⟩

theorem Moved.fin {A B A' : Cfg} {m : Nat} {r : ElementType} (hg : Behind d f g) (h : Moved d P A B)
    (ha : Fin e f mask m A r A') : ∃ B', Fin e g mask m B r B' ∧ Moved d P A' B' := by
  obtain ⟨C, h1, h2⟩ := ha
  obtain ⟨D, h3, h4⟩ := h.steps hg h1
  obtain ⟨B', h5, h6⟩ := h4.step (h4.src ▸ hg.look _) h2
  exact ⟨B', ⟨D, h3, h5⟩, h6⟩

theorem Moved.clr {A B : Cfg} (h : Moved d P A B) (c : Bool) : Moved d P (Mach.clr c A) (Mach.clr c B) := by
  obtain ⟨tp, rfl, h1⟩ := h.elim
  cases c
  · exact ⟨rfl, h1⟩
  · exact ⟨rfl, h1⟩

theorem Look.symm {j k : Nat} (h : Look e f j g k) : Look e g k f j :=
  ⟨h.len.symm, h.val.symm, h.asc.symm, by rw [h.len]; exact h.bytes.symm⟩

/-- What is said of one of the scanners holds for the other. -/
theorem Moved.back {A B B' : Cfg} {m : Nat} {r : ElementType} (hg : Behind d f g) (h : Moved d P A B)
    (hb : Fin e g mask m B r B') : ∃ A', Fin e f mask m A r A' ∧ Moved d P A' B' := by
  obtain ⟨D, h1, h2⟩ := hb
  have key : ∀ {A B B' : Cfg} {x : Option ElementType}, Moved d P A B → Mach.step e g mask B = (x, B') →
      ∃ A', Mach.step e f mask A = (x, A') ∧ Moved d P A' B' := by
    intro A B B' x h hb
    obtain ⟨B1, h3, h4⟩ := h.step (h.src ▸ hg.look (e := e) _) (rfl : Mach.step e f mask A = (_, _))
    rw [hb] at h3
    cases h3
    exact ⟨_, rfl, h4⟩
  have : ∃ C, Steps e f mask m A C ∧ Moved d P C D := by
    clear h2
    induction h1 generalizing A with
    | refl => exact ⟨_, .refl _, h⟩
    | cons h1 _ ih =>
      obtain ⟨A1, h2, h3⟩ := key h h1
      obtain ⟨A2, h4, h5⟩ := ih h3
      exact ⟨A2, .cons h2 h4, h5⟩
  obtain ⟨C, h3, h4⟩ := this
  obtain ⟨A', h5, h6⟩ := key h4 h2
  exact ⟨A', ⟨C, h3, h5⟩, h6⟩

/-- Lists that are related element by element. -/
inductive All2 {α β : Type} (R : α → β → Prop) : List α → List β → Prop
  | nil : All2 R [] []
  | cons {a : α} {b : β} {as : List α} {bs : List β} : R a b → All2 R as bs → All2 R (a :: as) (b :: bs)

theorem All2.map {α β γ : Type} {R : α → β → Prop} {as : List α} {bs : List β} {p : α → γ} {q : β → γ}
    (h : All2 R as bs) (hr : ∀ a b, R a b → p a = q b) : as.map p = bs.map q := by
  induction h with
  | nil => rfl
  | cons h _ ih => rw [List.map_cons, List.map_cons, hr _ _ h, ih]

/-- The items of runs from moved configurations. -/
theorem Moved.runs {A B : Cfg} {cs : List (Nat × Bool)} {os : List (ElementType × Cfg)} (hg : Behind d f g)
    (h : Moved d P A B) (ha : Runs e f cs A os) :
    ∃ os', Runs e g cs B os' ∧ All2 (fun a b => a.1 = b.1 ∧ Moved d P a.2 b.2) os os' := by
  induction ha generalizing B with
  | nil => exact ⟨[], .nil _, .nil⟩
  | cons h1 _ ih =>
    obtain ⟨B1, h2, h3⟩ := h.fin hg h1
    obtain ⟨os', h4, h5⟩ := ih (h3.clr _)
    exact ⟨_, .cons h2 h4, .cons ⟨rfl, h3⟩ h5⟩

theorem Moved.runs_back {A B : Cfg} {cs : List (Nat × Bool)} {os : List (ElementType × Cfg)} (hg : Behind d f g)
    (h : Moved d P A B) (hb : Runs e g cs B os) :
    ∃ os', Runs e f cs A os' ∧ All2 (fun a b => a.1 = b.1 ∧ Moved d P a.2 b.2) os' os := by
  induction hb generalizing A with
  | nil => exact ⟨[], .nil _, .nil⟩
  | cons h1 _ ih =>
    obtain ⟨B1, h2, h3⟩ := h.back hg h1
    obtain ⟨os', h4, h5⟩ := ih (h3.clr _)
    exact ⟨_, .cons h2 h4, .cons ⟨rfl, h3⟩ h5⟩

end Mach

end TW
