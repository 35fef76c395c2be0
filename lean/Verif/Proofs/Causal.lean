import Verif.Proofs.FirstError

/-!
# A run depends only on the characters it has read
-/

namespace TW.Mach

open Spec

variable {e : Enc} {f g : Nat → Byte} {mask : Nat}

/-- The offset behind the current character. -/
def upTo (e : Enc) (f : Nat → Byte) (A : Cfg) : Nat := A.src + ulen e f A.src

theorem slice_congr {k n : Nat} (h : ∀ i, k ≤ i → i < k + n → f i = g i) : slice f k n = slice g k n := by
  unfold slice
  apply List.map_congr_left
  intro i hi
  have := List.mem_range.1 hi
  exact h _ (by omega) (by omega)

theorem ulen_congr {k : Nat} (h : ∀ i, k ≤ i → i < k + ulen e f k → f i = g i) : ulen e f k = ulen e g k := by
  have hp := ulen_pos e f k
  have h0 := h k (Nat.le_refl _) (by omega)
  cases e with
  | utf8 => unfold ulen; simp only; rw [h0]
  | utf16 be =>
    have h1 := h (k + 1) (by omega) (by unfold ulen; simp only; split <;> omega)
    unfold ulen unit16
    simp only
    rw [h0, h1]
  | ucs2 => rfl
  | ucs4 => rfl
  | isolatin => rfl

theorem uval_congr {k : Nat} (h : ∀ i, k ≤ i → i < k + ulen e f k → f i = g i) : uval e f k = uval e g k := by
  have hp := ulen_pos e f k
  have h0 := h k (Nat.le_refl _) (by omega)
  cases e with
  | utf8 =>
    unfold uval utf8Val
    simp only
    rw [h0]
    rw [slice_congr (f := f) (g := g) (fun i hi hi' => h i (by omega) (by
      unfold ulen
      simp only
      rw [h0]
      have : 1 ≤ utf8Len (g k) := by unfold utf8Len; repeat' (first | split | omega)
      omega))]
  | utf16 be =>
    have h1 := h (k + 1) (by omega) (by unfold ulen; simp only; split <;> omega)
    have hu : unit16 be f k = unit16 be g k := by unfold unit16; rw [h0, h1]
    unfold uval
    simp only
    rw [hu]
    split
    · rename_i hs
      have h4 : ulen (.utf16 be) f k = 4 := by unfold ulen; simp only; rw [hu, if_pos hs]
      rw [h4] at h
      have : unit16 be f (k + 2) = unit16 be g (k + 2) := by
        unfold unit16
        rw [h (k + 2) (by omega) (by omega), h (k + 2 + 1) (by omega) (by omega)]
      rw [this]
    · rfl
  | ucs2 be =>
    unfold uval unit16
    simp only
    rw [h0, h (k + 1) (by omega) (by unfold ulen; simp only; omega)]
  | ucs4 be =>
    unfold uval
    simp only
    rw [h0, h (k + 1) (by omega) (by unfold ulen; simp only; omega), h (k + 2) (by omega) (by unfold ulen; simp only; omega),
      h (k + 3) (by omega) (by unfold ulen; simp only; omega)]
  | isolatin page => unfold uval; simp only; rw [h0]

theorem uasc_congr {k : Nat} (h : ∀ i, k ≤ i → i < k + ulen e f k → f i = g i) : uasc e f k = uasc e g k := by
  have hp := ulen_pos e f k
  have h0 := h k (Nat.le_refl _) (by omega)
  have h1 := uval_congr h
  unfold uasc
  split <;> first | rw [h0] | rw [h1]

/-- A step depends on the current character only. -/
theorem step_congr {A : Cfg} (h : ∀ i, A.src ≤ i → i < upTo e f A → f i = g i) : step e f mask A = step e g mask A := by
  have hadv : ∀ X : Cfg, X.src = A.src → adv e f X = adv e g X := by
    intro X hX
    unfold adv
    rw [hX, ulen_congr h]
  have hcls : ∀ X : Cfg, X.src = A.src → cls e f X = cls e g X := by
    intro X hX
    unfold cls
    rw [hX, uasc_congr h]
  have hasc : ∀ X : Cfg, X.src = A.src → asc e f X = asc e g X := by
    intro X hX
    unfold asc
    rw [hX, uasc_congr h]
  have hcop : copied e f A.output A.src = copied e g A.output A.src := by
    unfold copied
    rw [uval_congr h, ← ulen_congr h, slice_congr h]
  have hchar : charStep e f A = charStep e g A := by
    unfold charStep
    rw [hasc A rfl, hcop]
  have htrans : ∀ (sd : Elem) (rt : ElementType) (X : Cfg), X.src = A.src → trans e f sd rt X = trans e g sd rt X := by
    intro sd rt X hX
    unfold trans
    simp only
    rw [hcls X hX]
    split
    · exact congrArg (Prod.mk _) (hadv _ hX)
    · rfl
  have htok : ∀ isTok, tokStep e f isTok A = tokStep e g isTok A := by
    intro isTok
    have hc : (charStep e g A).src = A.src := (charStep_same A).1
    unfold tokStep
    simp (disch := first | exact hc | exact (rfl : A.src = A.src)) only [hadv, hcls, hasc, hchar]
    split <;> first
      | rfl
      | (repeat (first
          | exact congrArg (fun Y : Cfg => ((none : Option ElementType), if Y.tok.pos = 16 then fallback Y else Y)) (hadv _ rfl)
          | split | rfl | exact congrArg (Prod.mk none) (hadv _ rfl)))
  have hkey : ∀ sd op str, keyStep e f sd op str A = keyStep e g sd op str A := by
    intro sd op str
    unfold keyStep
    simp only
    rw [htrans _ _ A rfl, hasc A rfl, hcls A rfl, hadv A rfl]
  unfold step
  simp only
  rw [hcls A rfl, hadv A rfl]
  simp only [htok, hkey, htrans _ _ A rfl, htrans _ _ { A with tokenpos := A.src, out := [] } rfl]

theorem step_upTo {A B : Cfg} {r : Option ElementType} (h : step e f mask A = (r, B)) : upTo e f A ≤ upTo e f B := by
  have h1 : B.src = A.src ∨ B.src = A.src + ulen e f A.src := by
    rcases step_shape h with ⟨-, h | ⟨h, -⟩⟩ | ⟨-, h⟩ | ⟨-, h⟩
    · exact .inl h
    · exact .inr h
    · exact .inr h
    · exact .inl h
  unfold upTo
  rcases h1 with h1 | h1 <;> rw [h1] <;> omega

theorem steps_upTo {m : Nat} {A B : Cfg} (h : Steps e f mask m A B) : upTo e f A ≤ upTo e f B := by
  induction h with
  | refl => exact Nat.le_refl _
  | cons h1 _ ih => exact Nat.le_trans (step_upTo h1) ih

theorem clr_upTo (c : Bool) (B : Cfg) : upTo e f (clr c B) = upTo e f B := by
  unfold upTo
  rw [(clr_same c B).2.2]

theorem steps_congr {m : Nat} {A B : Cfg} (hs : Steps e f mask m A B) (h : ∀ i, i < upTo e f B → f i = g i) : Steps e g mask m A B := by
  induction hs with
  | refl => exact .refl _
  | @cons m A B C h1 h2 ih =>
    refine .cons ?_ (ih h)
    rw [← step_congr fun i _ hi => h i (Nat.lt_of_lt_of_le hi (steps_upTo (.cons h1 h2)))]
    exact h1

theorem fin_congr {m : Nat} {A B : Cfg} {r : ElementType} (hs : Fin e f mask m A r B) (h : ∀ i, i < upTo e f B → f i = g i) : Fin e g mask m A r B := by
  obtain ⟨A1, h1, h2⟩ := hs
  have h3 := step_upTo h2
  refine ⟨A1, steps_congr h1 fun i hi => h i (by omega), ?_⟩
  rw [← step_congr fun i _ hi => h i (by omega)]
  exact h2

theorem runs_upTo {cs : List (Nat × Bool)} {A : Cfg} {os : List (ElementType × Cfg)} (hr : Runs e f cs A os) : upTo e f A ≤ upTo e f (last A cs os) := by
  induction hr with
  | nil => exact Nat.le_refl _
  | @cons mask c cs A B m r os h1 h2 ih =>
    obtain ⟨A1, h3, h4⟩ := h1
    have := steps_upTo h3
    have := step_upTo h4
    rw [clr_upTo] at ih
    exact Nat.le_trans (by omega) ih

/-- A run on another text with the same characters up to the current one. -/
theorem runs_congr {cs : List (Nat × Bool)} {A : Cfg} {os : List (ElementType × Cfg)} (hr : Runs e f cs A os)
    (h : ∀ i, i < upTo e f (last A cs os) → f i = g i) : Runs e g cs A os := by
  induction hr with
  | nil => exact .nil _
  | @cons mask c cs A B m r os h1 h2 ih =>
    have h3 := runs_upTo h2
    rw [clr_upTo] at h3
    exact .cons (fin_congr h1 fun i hi => h i (Nat.lt_of_lt_of_le hi h3)) (ih h)

/-! ## The source behind the end of the text -/

theorem str_end : ∀ op str, stringDefs op = some str → (0 : Byte) ∉ str := by
  intro op str h
  cases op <;> simp only [stringDefs, Option.some.injEq, reduceCtorEq] at h <;> subst h <;> decide

/-- At the end of the text only transitions go on. -/
theorem end_stay {len : Nat} {A B : Cfg} {r : Option ElementType} (hf : Ends f len) (hi : Inv mask A) (hk : len ≤ A.src)
    (h : step e f mask A = (r, B)) : B.src = A.src ∨ ((stm A.state).next .EndOfText = some B.state ∧ B.src = A.src + ulen e f A.src) := by
  have hc : cls e f A = .EndOfText := hf.cls hk
  have ha : asc e f A = 0 := hf.asc hk
  have htr : ∀ {sd : Elem} {rt : ElementType} {X : Cfg}, sd = stm A.state → X.src = A.src → cls e f X = .EndOfText → Mach.trans e f sd rt X = (r, B) →
      B.src = A.src ∨ ((stm A.state).next .EndOfText = some B.state ∧ B.src = A.src + ulen e f A.src) := by
    rintro sd rt X rfl hX hcX h
    unfold Mach.trans at h
    simp only [hcX] at h
    split at h
    · rename_i h1
      cases h
      exact .inr ⟨h1, by show X.src + ulen e f X.src = _; rw [hX]⟩
    · split at h
      · cases h; exact .inl hX
      · split at h <;> (cases h; exact .inl hX)
  unfold step at h
  simp only at h
  split at h
  · exact htr rfl rfl hc h
  · split at h
    · rename_i isTok ht
      have hte := tok_end _ _ ht
      split at h
      · exact htr rfl rfl hc h
      · split at h
        · refine .inl ?_
          unfold tokStep at h
          have hb : A.tok.base ≤ hexVal 0 := Nat.le_trans hi.base (by decide)
          simp only [hc, ha, hte, hb, reduceCtorEq, if_false, if_true, Bool.false_eq_true, show ¬ (0 : Nat) = 35 by decide,
            show ¬ (0 : Nat) = 120 by decide, show ¬ (0 : Nat) = 59 by decide, and_false] at h
          repeat' split at h
          all_goals (cases h; rfl)
        · split at h
          · rename_i h1
            rw [hc, hte] at h1
            cases h1
          · exact htr rfl rfl hc h
    · split at h
      · rename_i str hs
        unfold keyStep at h
        simp only at h
        split at h
        · exact htr rfl rfl hc h
        · split at h
          · cases h
            refine .inl ?_
            split <;> rfl
          · rename_i c hcs
            split at h
            · rename_i h1
              rw [ha] at h1
              subst h1
              exact absurd (List.mem_of_getElem? hcs) (str_end _ _ hs)
            · cases h; exact .inl rfl
      · split at h
        · cases h
          refine .inl ?_
          split <;> rfl
        · exact htr (X := { A with tokenpos := A.src, out := [] }) rfl rfl hc h

/-- Not far behind the end of the text. -/
def Kept (len : Nat) (A : Cfg) : Prop := A.src < len + 8 ∨ (A.state = .EXIT ∧ A.src < len + 16)

theorem Kept.step {len : Nat} {A B : Cfg} {r : Option ElementType} (hf : Ends f len) (hi : Inv mask A) (hk : Kept len A)
    (h : step e f mask A = (r, B)) : Kept len B ∨ (Lost len B ∧ r = none) := by
  have h8 := ulen_le e f A.src
  by_cases hx : A.state = .EXIT
  · have h1 : B.state = .EXIT ∧ B.src = A.src := by
      obtain ⟨k1, k2⟩ := stm_exit
      unfold Mach.step at h
      rw [hx] at h
      simp only [k1] at h
      cases h
      exact ⟨rfl, rfl⟩
    refine .inl (.inr ⟨h1.1, ?_⟩)
    rw [h1.2]
    rcases hk with hk | ⟨-, hk⟩ <;> omega
  · have hk : A.src < len + 8 := by
      rcases hk with hk | ⟨hk, -⟩
      · exact hk
      · exact absurd hk hx
    by_cases hl : A.src < len
    · refine .inl (.inl ?_)
      rcases step_shape h with ⟨-, h | ⟨h, -⟩⟩ | ⟨-, h⟩ | ⟨-, h⟩ <;> omega
    · rcases end_stay hf hi (Nat.le_of_not_lt hl) h with h1 | ⟨h1, h2⟩
      · exact .inl (.inl (by omega))
      · rcases stm_end _ (STMState.mem_all _) _ h1 with ⟨h3, -⟩ | ⟨h3, h4⟩
        · exact .inl (.inr ⟨h3, by omega⟩)
        · refine .inr ⟨⟨by omega, h4⟩, ?_⟩
          obtain ⟨B', h5, -⟩ := Lost.step (e := e) (mask := mask) hf (A := A) ⟨by omega, h3⟩
          rw [h5] at h
          exact (congrArg Prod.fst h).symm

theorem Kept.fin {len m : Nat} {A B : Cfg} {r : ElementType} (hf : Ends f len) (hi : Inv mask A) (hk : Kept len A)
    (h : Fin e f mask m A r B) : Kept len B := by
  obtain ⟨A1, h1, h2⟩ := h
  induction h1 with
  | refl =>
    rcases hk.step hf hi h2 with h | ⟨-, h⟩
    · exact h
    · cases h
  | @cons m A C A1 h3 h4 ih =>
    rcases hk.step hf hi h3 with h | ⟨h, -⟩
    · exact ih (step_inv hi h3) h h2
    · exact absurd ⟨A1, h4, h2⟩ (h.never (e := e) (mask := mask) (m := m) (r := r) (B := B) hf)

theorem Kept.runs {len : Nat} (hf : Ends f len) {cs : List (Nat × Bool)} {A : Cfg} {os : List (ElementType × Cfg)} (hr : Runs e f cs A os) :
    Inv0 A → Kept len A → Kept len (last A cs os) := by
  induction hr with
  | nil => exact fun _ h => h
  | @cons mask c cs A B m r os h1 h2 ih =>
    intro hi hk
    have h3 := hk.fin hf (hi.inv mask) h1
    obtain ⟨A1, h4, h5⟩ := h1
    refine ih ((step_ret (steps_inv h4 (hi.inv mask)) h5).clr c) ?_
    unfold Kept
    rw [(clr_same c B).2.1, (clr_same c B).2.2]
    exact h3

end TW.Mach
