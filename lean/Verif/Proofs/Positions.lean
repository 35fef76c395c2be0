import Verif.Proofs.Text

/-!
# Positions of the machine
-/

namespace TW

open Spec

namespace Mach

variable {e : Enc} {f : Nat → Byte} {mask : Nat}

/-- At the end of the text the source is only advanced by a transition to the end state, or a lost one. -/
def Stays (len : Nat) (A B : Cfg) : Prop := B.src = A.src ∨ (A.state ≠ .EXIT ∧ B.state = .EXIT) ∨ Lost len B

theorem trans_stays {len : Nat} {A B : Cfg} {rt : ElementType} {r : Option ElementType} (hf : Ends f len)
    (hl : len ≤ A.src) (h : Mach.trans e f (stm A.state) rt A = (r, B)) : Stays len A B := by
  unfold Mach.trans at h
  simp only at h
  split at h
  · rename_i ns hns
    rw [hf.cls hl] at hns
    cases h
    rcases stm_end _ (STMState.mem_all _) ns hns with ⟨rfl, h1⟩ | ⟨-, h1⟩
    · exact .inr (.inl ⟨h1, rfl⟩)
    · refine .inr (.inr ⟨?_, h1⟩)
      simp only [adv, idTo, tokTo]
      omega
  · split at h
    · cases h; exact .inl rfl
    · split at h <;> cases h <;> exact .inl rfl

theorem tokStep_stays {len : Nat} {A B : Cfg} {isTok : Cc → Bool} {r : Option ElementType} (hf : Ends f len)
    (hi : A.tok.base ≤ 16) (ht : isTok .EndOfText = false)
    (hl : len ≤ A.src) (h : tokStep e f isTok A = (r, B)) : B.src = A.src := by
  have hc := hf.cls (e := e) hl
  have ha := hf.asc (e := e) hl
  unfold tokStep at h
  rw [hc, ha] at h
  have hh : A.tok.base ≤ hexVal 0 := Nat.le_trans hi (by decide)
  cases hid : A.tok.id <;> simp [hid, ht, hh] at h
  all_goals
    obtain ⟨-, rfl⟩ := h
    rfl

theorem step_stays {len : Nat} {A B : Cfg} {r : Option ElementType} (hf : Ends f len) (hi : Inv mask A)
    (hl : len ≤ A.src) (h : step e f mask A = (r, B)) : Stays len A B := by
  unfold step at h
  simp only at h
  split at h
  · exact trans_stays hf hl h
  · rename_i op arg ha
    split at h
    · rename_i isTok hd
      have ht := tok_end _ _ hd
      split at h
      · exact trans_stays hf hl h
      · split at h
        · exact .inl (tokStep_stays hf hi.base ht hl h)
        · split at h
          · rename_i hc
            rw [hf.cls hl, ht] at hc
            simp at hc
          · exact trans_stays hf hl h
    · split at h
      · rename_i str hstr
        unfold keyStep at h
        simp only at h
        split at h
        · exact trans_stays hf hl h
        · split at h
          · cases h
            left
            split <;> rfl
          · rename_i c hc
            split at h
            · rename_i ha'
              rw [hf.asc hl] at ha'
              subst ha'
              have : (0 : Nat) ∉ str := by
                cases op <;> simp only [stringDefs, Option.some.injEq, reduceCtorEq] at hstr <;>
                  subst hstr <;> decide
              exact absurd (List.mem_of_getElem? hc) this
            · cases h; exact .inl rfl
      · split at h
        · left
          split at h <;> cases h <;> rfl
        · exact trans_stays (A := { A with tokenpos := A.src, out := [] }) hf hl h

theorem step_exit {A B : Cfg} {r : Option ElementType} (hs : A.state = .EXIT) (h : step e f mask A = (r, B)) :
    B.state = .EXIT ∧ B.src = A.src := by
  unfold step at h
  simp only [hs, stm_exit.1, stm_exit.2] at h
  simp [tokenDefs, stringDefs, show (stm .EXIT).fallback = none from rfl] at h
  rw [← h.2]
  exact ⟨rfl, rfl⟩

/-- The source is at most a little behind the end of the text. -/
def Near (len : Nat) (A : Cfg) : Prop :=
  A.src < len + 8 ∨ (A.state = .EXIT ∧ A.src < len + 16) ∨ Lost len A

theorem step_near {len : Nat} {A B : Cfg} {r : Option ElementType} (hf : Ends f len) (hi : Inv mask A)
    (hn : Near len A) (h : step e f mask A = (r, B)) : Near len B := by
  have h8 := ulen_le e f A.src
  have hsh : B.src ≤ A.src + ulen e f A.src := by
    rcases step_shape h with ⟨-, h | h⟩ | ⟨-, h⟩ | ⟨-, h⟩ <;> omega
  rcases hn with hn | ⟨hx, hn⟩ | hn
  · by_cases hl : len ≤ A.src
    · rcases step_stays hf hi hl h with h1 | ⟨-, h1⟩ | h1
      · exact .inl (by omega)
      · exact .inr (.inl ⟨h1, by omega⟩)
      · exact .inr (.inr h1)
    · exact .inl (by omega)
  · have := step_exit hx h
    exact .inr (.inl ⟨this.1, by omega⟩)
  · obtain ⟨B', h1, h2⟩ := hn.step (e := e) (mask := mask) hf
    rw [h] at h1
    cases h1
    exact .inr (.inr h2)

theorem steps_near {len : Nat} {A B : Cfg} {m : Nat} (hf : Ends f len) (h : Steps e f mask m A B) :
    Inv mask A → Near len A → Near len B := by
  induction h with
  | refl => exact fun _ h => h
  | cons h1 _ ih => exact fun hi hn => ih (step_inv hi h1) (step_near hf hi hn h1)

/-- The source when a call returns. -/
def Near' (len : Nat) (A : Cfg) : Prop := A.src < len + 8 ∨ (A.state = .EXIT ∧ A.src < len + 16)

theorem fin_near {len : Nat} {A B : Cfg} {m : Nat} {r : ElementType} (hf : Ends f len) (hi : Inv mask A)
    (hn : Near' len A) (h : Fin e f mask m A r B) : Near' len B := by
  have h0 := h
  obtain ⟨C, h1, h2⟩ := h
  have hC : Near len C := steps_near hf h1 hi (hn.imp id .inl)
  rcases hC with hC | hC | hC
  · rcases step_near hf (steps_inv h1 hi) (.inl hC) h2 with h | h | h
    · exact .inl h
    · exact .inr h
    · by_cases hl : len ≤ C.src
      · rcases step_stays hf (steps_inv h1 hi) hl h2 with h3 | ⟨h4, h3⟩ | -
        · exact .inl (by omega)
        · exact absurd h.2 (by rw [h3]; decide)
        · left
          -- a step into a lost state returns nothing
          rcases step_shape h2 with ⟨h3, h4⟩ | ⟨h3, h4⟩ | ⟨-, h3⟩
          · rcases h4 with h4 | ⟨-, h4⟩
            · omega
            · have := (stm_lost _ h.2).1
              rw [h3] at this
              contradiction
          · rw [hf.cls hl] at h3
            rcases stm_end _ (STMState.mem_all _) _ h3 with ⟨h5, -⟩ | ⟨h5, -⟩
            · exact absurd h.2 (by rw [h5]; decide)
            · obtain ⟨B', h6, -⟩ := Lost.step (e := e) (mask := mask) hf ⟨hl, h5⟩
              rw [h2] at h6
              cases h6
          · omega
      · left
        have h8 := ulen_le e f C.src
        rcases step_shape h2 with ⟨-, h | h⟩ | ⟨-, h⟩ | ⟨-, h⟩ <;> omega
  · have := step_exit hC.1 h2
    exact .inr ⟨this.1, by omega⟩
  · exact absurd (⟨C, .refl C, h2⟩ : Fin e f mask 0 C r B) (hC.never hf)

theorem reach_near {len : Nat} {A0 A : Cfg} (hf : Ends f len) (hi : Inv0 A0) (hn : Near' len A0)
    (h : Reach e f A0 A) : Inv0 A ∧ Near' len A := by
  induction h with
  | refl => exact ⟨hi, hn⟩
  | @call mask m c A B r h1 h2 ih =>
    obtain ⟨j1, j2⟩ := ih
    have iB : Inv0 B := by
      obtain ⟨D, d1, d2⟩ := h2
      exact step_ret (steps_inv d1 (j1.inv _)) d2
    have := fin_near hf (j1.inv _) j2 h2
    refine ⟨iB.clr _, ?_⟩
    unfold clr
    split <;> exact this

/-! ## The position of the token -/

theorem step_tokenpos {A B : Cfg} {r : Option ElementType} (h : step e f mask A = (r, B)) :
    B.tokenpos = A.src ∨ B.tokenpos = A.tokenpos := by
  unfold step at h
  simp only at h
  split at h
  · exact .inr (trans_ret h).2.2.1
  · split at h
    · split at h
      · exact .inr (trans_ret h).2.2.1
      · split at h
        · unfold tokStep at h
          cases hid : A.tok.id <;> simp only [hid] at h <;> repeat' split at h
          all_goals first
            | (cases h; exact .inl rfl)
            | (cases h; exact .inr rfl)
            | (cases h; obtain ⟨o, b, ho⟩ := charStep_eq (e := e) (f := f) A; rw [ho]; exact .inr rfl)
        · split at h
          · cases h; exact .inr rfl
          · exact .inr (trans_ret h).2.2.1
    · split at h
      · unfold keyStep at h
        simp only at h
        split at h
        · exact .inr (trans_ret h).2.2.1
        · split at h
          · cases h
            right
            split <;> rfl
          · split at h <;> cases h <;> exact .inr rfl
      · split at h
        · left
          split at h <;> cases h <;> rfl
        · exact .inl (trans_ret h).2.2.1

theorem step_tokle {A B : Cfg} {r : Option ElementType} (h : step e f mask A = (r, B)) (ht : A.tokenpos ≤ A.src) :
    B.tokenpos ≤ B.src := by
  have := (step_shape h).mono
  rcases step_tokenpos h with h | h <;> omega

theorem fin_tokle {A B : Cfg} {m : Nat} {r : ElementType} (h : Fin e f mask m A r B) (ht : A.tokenpos ≤ A.src) :
    B.tokenpos ≤ B.src := by
  obtain ⟨C, h1, h2⟩ := h
  refine step_tokle h2 ?_
  clear h2
  induction h1 with
  | refl => exact ht
  | cons h _ ih => exact ih (step_tokle h ht)

theorem reach_tokle {A0 A : Cfg} (ht : A0.tokenpos ≤ A0.src) (h : Reach e f A0 A) : A.tokenpos ≤ A.src := by
  induction h with
  | refl => exact ht
  | @call mask m c A B r h1 h2 ih =>
    have := fin_tokle h2 ih
    unfold clr
    split <;> exact this

/-- The types of items without text. -/
def textless : List ElementType := [.HeaderEnd, .CloseTagIm, .DocAttribEnd, .Exit]

theorem ret_textless : ∀ s ∈ STMState.all, ∀ op arg, (stm s).action = some (op, arg) → tokenDefs op ≠ none →
    arg ∉ textless := by
  intro s _ op arg h ht
  cases s <;> simp only [stm, Option.some.injEq, Prod.mk.injEq, reduceCtorEq] at h
  all_goals
    obtain ⟨rfl, rfl⟩ := h
    first
      | decide
      | exact absurd rfl ht

/-- A step that returns an item without text sets the position. -/
theorem step_textless {A B : Cfg} {r : ElementType} (hi : Inv mask A) (h : step e f mask A = (some r, B))
    (hr : r ∈ textless) : B.tokenpos = A.src := by
  have hne : r ≠ .ErrorOccurred := by rintro rfl; exact absurd hr (by decide)
  have hnn : r ≠ .None := by rintro rfl; exact absurd hr (by decide)
  have hnh : r ≠ .HeaderStart := by rintro rfl; exact absurd hr (by decide)
  have tr : ∀ {C : Cfg} {sd : Elem} {rt : ElementType}, Mach.trans e f sd rt C = (some r, B) → r = rt := by
    intro C sd rt h
    obtain ⟨-, h1, h2, h3 | h3⟩ := trans_ret h
    · simp only [Option.some.injEq] at h3; exact absurd h3 hne
    · unfold Scanner.loopEnd at h3
      split at h3
      · cases h3
      · simp only [Option.some.injEq] at h3; exact h3
  unfold step at h
  simp only at h
  split at h
  · exact absurd (tr h) hnn
  · rename_i op arg ha
    split at h
    · rename_i isTok htd
      have hx : arg ∉ textless := ret_textless _ (STMState.mem_all _) _ _ ha (by rw [htd]; simp)
      split at h
      · exact absurd (tr h ▸ hr) hx
      · split at h
        · exact absurd (tokStep_err hi.buf h).2 hne
        · split at h
          · cases h
          · exact absurd (tr h ▸ hr) hx
    · split at h
      · unfold keyStep at h
        simp only at h
        split at h
        · have := tr h
          split at this
          · exact absurd this hnh
          · exact absurd this hnn
        · split at h
          · cases h
          · split at h
            · cases h
            · cases h; exact absurd rfl hne
      · split at h
        · split at h <;> cases h <;> rfl
        · exact (trans_ret h).2.2.1

theorem kinds_types : ∀ r : ElementType, r = .None ∨ r = .ErrorOccurred ∨ r = .HeaderStart ∨ kindsOf r ≠ [] ∨ r ∈ textless := by
  intro r
  cases r <;> simp [kindsOf, textless]

/-- The token of a call starts in the call. -/
theorem fin_tokenpos {A B : Cfg} {m : Nat} {r : ElementType} (hi : Inv mask A) (h0 : Idle A)
    (h : Fin e f mask m A r B) (hr : (kindsOf r ≠ [] ∧ mask.testBit r.toNat = true) ∨ r ∈ textless) :
    A.src ≤ B.tokenpos := by
  rcases hr with ⟨h1, h2⟩ | hr
  · obtain ⟨i, C, n, isTok, c1, -, -, -, c2⟩ := fin_token hi h0 h h1 h2
    rw [← c2]
    exact steps_mono c1
  · obtain ⟨C, h1, h2⟩ := h
    rw [step_textless (steps_inv h1 hi) h2 hr]
    exact steps_mono h1

end Mach

end TW
