import Verif.Proofs.Machine

/-!
# Runs of the step machine and their invariant
-/

namespace TW

open Spec

theorem STMState.mem_all (s : STMState) : s ∈ STMState.all := by cases s <;> decide

theorem M.bind_assoc {σ α β γ : Type} (x : M σ α) (g : α → M σ β) (h : β → M σ γ) :
    ((x >>= g) >>= h) = (x >>= fun a => g a >>= h) := by
  funext s
  rw [M.bind_run, M.bind_run, M.bind_run]
  generalize x s = r
  obtain ⟨r, s'⟩ := r
  cases r <;> rfl

theorem M.pure_bind {σ α β : Type} (a : α) (g : α → M σ β) : ((Pure.pure a : M σ α) >>= g) = g a := rfl

namespace Mach

variable {e : Enc} {f : Nat → Byte} {mask : Nat}

/-- `Steps m A B`: the machine gets from `A` to `B` in `m` steps without returning. -/
inductive Steps (e : Enc) (f : Nat → Byte) (mask : Nat) : Nat → Cfg → Cfg → Prop where
  | refl (A : Cfg) : Steps e f mask 0 A A
  | cons {m : Nat} {A B C : Cfg} : step e f mask A = (none, B) → Steps e f mask m B C →
      Steps e f mask (m + 1) A C

theorem Steps.trans {m n : Nat} {A B C : Cfg} (h : Steps e f mask m A B)
    (h' : Steps e f mask n B C) : Steps e f mask (m + n) A C := by
  induction h with
  | refl A => simpa using h'
  | @cons m A B D h1 h2 ih =>
    rw [show m + 1 + n = m + n + 1 by omega]
    exact .cons h1 (ih h')

theorem Steps.one {A B : Cfg} (h : step e f mask A = (none, B)) : Steps e f mask 1 A B :=
  .cons h (.refl B)

theorem Steps.snoc {m : Nat} {A B C : Cfg} (h : Steps e f mask m A B)
    (h' : step e f mask B = (none, C)) : Steps e f mask (m + 1) A C := h.trans (.one h')

/-! ## Invariant of the configurations -/

/-- The action of the state is to read a token that is not masked out. -/
def Reads (mask : Nat) (st : STMState) (isTok : Cc → Bool) (arg : ElementType) : Prop :=
  ∃ op, (stm st).action = some (op, arg) ∧ tokenDefs op = some isTok ∧ mask.testBit arg.toNat = true

/-- The action of the state is to read a token that is masked out. -/
def Skips (mask : Nat) (st : STMState) (isTok : Cc → Bool) (arg : ElementType) : Prop :=
  ∃ op, (stm st).action = some (op, arg) ∧ tokenDefs op = some isTok ∧ mask.testBit arg.toNat = false

/-- The action of the state is to read a key word. -/
def Keys (st : STMState) (str : List Byte) (op : STMAction) : Prop :=
  ∃ arg, (stm st).action = some (op, arg) ∧ tokenDefs op = none ∧ stringDefs op = some str

/-- Is the token parser inside a token? -/
def inTok : TokId → Bool
  | .Start | .ParsingDone | .ParsingKey => false
  | _ => true

/-- Has the entity buffer position a value other than 0? -/
def hasPos : TokId → Bool
  | .ParsingKey | .ParsingNumericBaseEntity | .ParsingNamedEntity => true
  | _ => false

/-- Invariant of the configurations of a call with the given mask. -/
structure Inv (mask : Nat) (A : Cfg) : Prop where
  buf : A.tok.buf.length = 16
  pos : A.tok.pos ≤ 15
  base : A.tok.base ≤ 16
  pos0 : hasPos A.tok.id = false → A.tok.pos = 0
  key : A.tok.id = .ParsingKey → ∃ str op, Keys A.state str op ∧ A.tok.pos ≤ str.length
  tok : inTok A.tok.id = true → ∃ isTok arg, Reads mask A.state isTok arg
  val : A.tok.value < 16 ^ A.tok.pos
  cr : inTok A.tok.id = false → A.tok.eolCR = false

/-- Invariant between two calls. -/
structure Inv0 (A : Cfg) : Prop where
  buf : A.tok.buf.length = 16
  pos : A.tok.pos = 0
  base : A.tok.base ≤ 16
  id : A.tok.id = .Start ∨ A.tok.id = .ParsingDone
  val : A.tok.value = 0
  cr : A.tok.eolCR = false

theorem Inv0.inv {A : Cfg} (h : Inv0 A) (mask : Nat) : Inv mask A := by
  refine ⟨h.buf, by rw [h.pos]; omega, h.base, fun _ => h.pos, ?_, ?_, ?_, fun _ => h.cr⟩
  · intro h1; rcases h.id with h2 | h2 <;> rw [h1] at h2 <;> cases h2
  · intro h1; rcases h.id with h2 | h2 <;> rw [h2] at h1 <;> cases h1
  · rw [h.val, h.pos]; decide

theorem Inv.value0 {A : Cfg} (h : Inv mask A) (h0 : A.tok.pos = 0) : A.tok.value = 0 := by
  have := h.val
  rw [h0] at this
  omega

theorem Inv.idle {A : Cfg} (h : Inv mask A) (h1 : inTok A.tok.id = false)
    (h2 : A.tok.id ≠ .ParsingKey) : Inv0 A := by
  have hp : A.tok.pos = 0 := by
    refine h.pos0 ?_
    cases hi : A.tok.id <;> simp [hi, inTok, hasPos] at h1 h2 ⊢
  refine ⟨h.buf, hp, h.base, ?_, h.value0 hp, h.cr h1⟩
  · cases hi : A.tok.id <;> simp [hi, inTok] at h1 h2 ⊢

/-- In a state whose action is not a token that is read, the token parser is idle or
reads a key. -/
theorem Inv.notReads {A : Cfg} (h : Inv mask A) (hn : ∀ isTok arg, ¬ Reads mask A.state isTok arg) :
    inTok A.tok.id = false := by
  cases hi : inTok A.tok.id with
  | false => rfl
  | true =>
    obtain ⟨isTok, arg, hr⟩ := h.tok hi
    exact absurd hr (hn _ _)

theorem trans_inv0 {A B : Cfg} {sd : Elem} {rt : ElementType} {r : Option ElementType}
    (hb : A.tok.buf.length = 16) (hp : A.tok.pos = 0) (hbs : A.tok.base ≤ 16) (hv : A.tok.value = 0)
    (hc : A.tok.eolCR = false) (h : Mach.trans e f sd rt A = (r, B)) :
    Inv0 B := by
  unfold Mach.trans at h
  simp only at h
  repeat' split at h
  all_goals
    simp only [Prod.mk.injEq] at h
    obtain ⟨-, rfl⟩ := h
    exact ⟨hb, hp, hbs, .inl rfl, hv, hc⟩

theorem charStep_tok (A : Cfg) : (charStep e f A).tok.pos = A.tok.pos ∧
    (charStep e f A).tok.value = A.tok.value ∧ (charStep e f A).tok.id = A.tok.id := by
  unfold charStep
  split
  · exact ⟨rfl, rfl, rfl⟩
  · split
    · split <;> exact ⟨rfl, rfl, rfl⟩
    · exact ⟨rfl, rfl, rfl⟩

/-- The value of a numeric entity is bounded by the number of digits. -/
theorem tokStep_vc {A B : Cfg} {isTok : Cc → Bool} {arg : ElementType}
    (h : Inv mask A) (hr : Reads mask A.state isTok arg) (hd : A.tok.id ≠ .ParsingDone)
    (hs : tokStep e f isTok A = (none, B)) :
    B.tok.value < 16 ^ B.tok.pos ∧ (inTok B.tok.id = false → B.tok.eolCR = false) := by
  have hv := h.val
  have hbs := h.base
  have hpos := h.pos
  have hcr := h.cr
  unfold tokStep at hs
  cases hid : A.tok.id <;> simp only [hid] at hs hd hcr
  · cases hs; exact ⟨hv, fun h => by simp [idTo, tokTo, inTok] at h⟩
  · exact absurd rfl hd
  · cases hs
  · split at hs <;> cases hs <;> exact ⟨hv, fun h => by simp [idTo, tokTo, inTok] at h⟩
  · split at hs <;> cases hs <;> exact ⟨hv, fun h => by simp [tokTo, inTok] at h⟩
  · split at hs
    · split at hs <;> cases hs <;> exact ⟨Nat.zero_lt_one, fun _ => rfl⟩
    · split at hs
      · cases hs; exact ⟨Nat.zero_lt_one, fun _ => rfl⟩
      · rename_i hlt
        split at hs <;> cases hs
        · exact ⟨Nat.zero_lt_one, fun _ => rfl⟩
        · refine ⟨?_, fun h => by simp [tokTo, store, adv, inTok, hid] at h⟩
          refine Nat.lt_of_le_of_lt (Nat.mod_le _ _) ?_
          show A.tok.value * A.tok.base + hexVal (asc e f A) < 16 ^ (A.tok.pos + 1)
          have h1 : A.tok.value * A.tok.base ≤ A.tok.value * 16 := Nat.mul_le_mul_left _ hbs
          rw [Nat.pow_succ]
          omega
  · split at hs
    · cases hs
      refine ⟨Nat.lt_of_lt_of_le hv (Nat.pow_le_pow_right (by omega) (Nat.le_succ _)), ?_⟩
      intro h; simp [tokTo, store, adv, inTok, hid] at h
    · split at hs
      · split at hs
        · cases hs; exact ⟨Nat.zero_lt_one, fun _ => rfl⟩
        · cases hs
      · cases hs; exact ⟨Nat.zero_lt_one, fun _ => rfl⟩
  · split at hs
    · cases hs
      obtain ⟨h1, h2, h3⟩ := charStep_tok (e := e) (f := f) A
      refine ⟨by simp only [adv]; rw [h1, h2]; exact hv, fun h => ?_⟩
      simp only [adv] at h
      rw [h3, hid] at h
      cases h
    · split at hs <;> cases hs
      · exact ⟨hv, fun h => by simp [idTo, tokTo, inTok] at h⟩
      · exact ⟨Nat.zero_lt_one, fun _ => rfl⟩

/-- A step inside a token leaves the state alone. -/
theorem tokStep_inv {A B : Cfg} {isTok : Cc → Bool} {arg : ElementType}
    (h : Inv mask A) (hr : Reads mask A.state isTok arg) (hd : A.tok.id ≠ .ParsingDone)
    (hs : tokStep e f isTok A = (none, B)) : Inv mask B ∧ B.state = A.state := by
  have hbuf := h.buf
  have hpos := h.pos
  have hpos0 := h.pos0
  have hbs := h.base
  have hkey : A.tok.id ≠ .ParsingKey := by
    intro hk
    obtain ⟨str, op, ⟨arg', h1, h2, h3⟩, -⟩ := h.key hk
    obtain ⟨op', h4, h5, h6⟩ := hr
    rw [h1] at h4
    cases h4
    rw [h2] at h5
    cases h5
  have hex : ∃ isTok arg, Reads mask A.state isTok arg := ⟨_, _, hr⟩
  have hvc := tokStep_vc h hr hd hs
  have mk : ∀ B : Cfg, (B.tok.value < 16 ^ B.tok.pos ∧ (inTok B.tok.id = false → B.tok.eolCR = false)) →
      B.state = A.state → B.tok.buf.length = 16 → B.tok.pos ≤ 15 → B.tok.base ≤ 16 →
      (hasPos B.tok.id = false → B.tok.pos = 0) → B.tok.id ≠ .ParsingKey →
      Inv mask B ∧ B.state = A.state := by
    intro B h6 h1 h2 h3 hb h4 h5
    exact ⟨⟨h2, h3, hb, h4, fun h => absurd h h5, fun _ => by rw [h1]; exact hex, h6.1, h6.2⟩, h1⟩
  unfold tokStep at hs
  cases hid : A.tok.id <;> simp only [hid] at hs hpos0 hkey hd
  · cases hs
    exact mk _ hvc rfl hbuf hpos hbs (fun _ => hpos0 rfl) (by simp [idTo, tokTo])
  · exact absurd rfl hd
  · exact absurd rfl hkey
  · split at hs <;> cases hs <;> refine mk _ hvc rfl hbuf hpos hbs ?_ (by simp [idTo, tokTo, adv])
    · intro _; exact hpos0 rfl
    · intro h; simp [idTo, tokTo, hasPos] at h
  · split at hs <;> cases hs <;> refine mk _ hvc rfl hbuf hpos (by simp [tokTo, adv]) ?_ (by simp [tokTo, adv])
    all_goals intro h; simp [tokTo, adv, hasPos] at h
  · split at hs
    · split at hs <;> cases hs
      · exact mk _ hvc rfl (by simp [fallback, initTok, tokTo, pushes, store, TokState.init, hbuf])
          (by simp [fallback, initTok, tokTo, pushes, store, TokState.init]) (Nat.zero_le _)
          (by simp [fallback, initTok, tokTo, pushes, store, TokState.init])
          (by simp [fallback, initTok, tokTo, pushes, store, TokState.init])
      · exact mk _ hvc rfl hbuf (by simp [initTok, tokTo, pushes, adv, TokState.init]) (Nat.zero_le _)
          (by simp [initTok, tokTo, pushes, adv, TokState.init])
          (by simp [initTok, tokTo, pushes, adv, TokState.init])
    · split at hs
      · cases hs
        exact mk _ hvc rfl hbuf (by simp [fallback, initTok, tokTo, pushes, TokState.init]) (Nat.zero_le _)
          (by simp [fallback, initTok, tokTo, pushes, TokState.init])
          (by simp [fallback, initTok, tokTo, pushes, TokState.init])
      · split at hs <;> cases hs
        · exact mk _ hvc rfl (by simp [fallback, initTok, tokTo, pushes, store, adv, TokState.init, hbuf])
            (by simp [fallback, initTok, tokTo, pushes, store, TokState.init]) (Nat.zero_le _)
            (by simp [fallback, initTok, tokTo, pushes, store, TokState.init])
            (by simp [fallback, initTok, tokTo, pushes, store, TokState.init])
        · rename_i hne
          refine mk _ hvc rfl (by simp [tokTo, store, adv, hbuf]) ?_ hbs ?_ ?_
          · simp only [tokTo, store, adv] at hne ⊢; omega
          · simp [tokTo, store, adv, hid, hasPos]
          · simp [tokTo, store, adv, hid]
  · split at hs
    · cases hs
      rename_i hc
      refine mk _ hvc rfl (by simp [tokTo, store, adv, hbuf]) ?_ hbs ?_ ?_
      · simp only [tokTo, store, adv]; omega
      · simp [tokTo, store, adv, hid, hasPos]
      · simp [tokTo, store, adv, hid]
    · split at hs
      · split at hs
        · cases hs
          exact mk _ hvc rfl (by simp [initTok, tokTo, pushes, adv, TokState.init, hbuf])
            (by simp [initTok, tokTo, pushes, adv, TokState.init]) (Nat.zero_le _)
            (by simp [initTok, tokTo, pushes, adv, TokState.init])
            (by simp [initTok, tokTo, pushes, adv, TokState.init])
        · cases hs
      · cases hs
        exact mk _ hvc rfl hbuf (by simp [fallback, initTok, tokTo, pushes, TokState.init]) (Nat.zero_le _)
          (by simp [fallback, initTok, tokTo, pushes, TokState.init])
          (by simp [fallback, initTok, tokTo, pushes, TokState.init])
  · split at hs
    · cases hs
      have : (charStep e f A).tok.pos = A.tok.pos ∧ (charStep e f A).tok.buf = A.tok.buf ∧
          (charStep e f A).tok.id = A.tok.id ∧ (charStep e f A).state = A.state ∧
          (charStep e f A).tok.base = A.tok.base := by
        unfold charStep
        split
        · exact ⟨rfl, rfl, rfl, rfl, rfl⟩
        · split
          · split <;> exact ⟨rfl, rfl, rfl, rfl, rfl⟩
          · exact ⟨rfl, rfl, rfl, rfl, rfl⟩
      obtain ⟨h1, h2, h3, h4, hbs'⟩ := this
      refine mk _ hvc (by simp [adv, h4]) (by simp [adv, h2, hbuf]) (by simp only [adv, h1]; exact hpos)
        (by simp only [adv, hbs']; exact hbs)
        (by simp only [adv, h1]; intro _; exact hpos0 rfl) (by simp [adv, h3, hid])
    · split at hs <;> cases hs
      · exact mk _ hvc rfl hbuf hpos hbs (fun _ => hpos0 rfl) (by simp [idTo, tokTo, adv])
      · exact mk _ hvc rfl hbuf (by simp [initTok, tokTo, TokState.init]) (Nat.zero_le _)
          (by simp [initTok, tokTo, TokState.init]) (by simp [initTok, tokTo, TokState.init])

theorem tokStep_err {A B : Cfg} {isTok : Cc → Bool} {r : ElementType}
    (hb : A.tok.buf.length = 16) (hs : tokStep e f isTok A = (some r, B)) :
    Inv0 B ∧ r = .ErrorOccurred := by
  unfold tokStep at hs
  simp only at hs
  repeat' split at hs
  all_goals first
    | (simp only [Prod.mk.injEq, reduceCtorEq, false_and] at hs; done)
    | (simp only [Prod.mk.injEq, Option.some.injEq] at hs
       obtain ⟨rfl, rfl⟩ := hs
       exact ⟨⟨by simp [initTok, tokTo, TokState.init, hb], rfl, Nat.zero_le _, .inl rfl, rfl, rfl⟩, rfl⟩)

/-- The state machine of the scanner never gets stuck. -/
theorem stm_total : ∀ s ∈ STMState.all, ∀ op ∈ (stm s).action.map (·.1),
    (tokenDefs op).isSome ∨ (stringDefs op).isSome ∨ op = .Return := by decide +kernel

theorem step_inv {A B : Cfg} (h : Inv mask A) (hs : step e f mask A = (none, B)) : Inv mask B := by
  unfold step at hs
  simp only at hs
  split at hs
  · rename_i ha
    have hno : ∀ isTok arg, ¬ Reads mask A.state isTok arg := by
      rintro isTok arg ⟨op, h1, -⟩; rw [ha] at h1; cases h1
    have hk : A.tok.id ≠ .ParsingKey := by
      intro hk; obtain ⟨_, _, ⟨_, h1, _⟩, _⟩ := h.key hk; rw [ha] at h1; cases h1
    have h0 := h.idle (h.notReads hno) hk
    exact (trans_inv0 h0.buf h0.pos h0.base h0.val h0.cr hs).inv mask
  · rename_i op arg ha
    split at hs
    · rename_i isTok hd
      have hk : A.tok.id ≠ .ParsingKey := by
        intro hk; obtain ⟨_, _, ⟨_, h1, h2, _⟩, _⟩ := h.key hk; rw [ha] at h1; cases h1
        rw [hd] at h2; cases h2
      split at hs
      · rename_i hid
        exact (trans_inv0 h.buf (h.pos0 (by rw [hid]; rfl)) h.base
            (h.value0 (h.pos0 (by rw [hid]; rfl))) (h.cr (by rw [hid]; rfl)) hs).inv mask
      · rename_i hid
        split at hs
        · rename_i hm
          exact (tokStep_inv h ⟨op, ha, hd, hm⟩ hid hs).1
        · rename_i hm
          have hno : ∀ isTok arg, ¬ Reads mask A.state isTok arg := by
            rintro isTok arg ⟨op, h1, -, h3⟩; rw [ha] at h1; cases h1; exact hm h3
          have h0 := h.idle (h.notReads hno) hk
          split at hs
          · cases hs
            exact ⟨h.buf, h.pos, h.base, h.pos0, h.key, h.tok, h.val, h.cr⟩
          · exact (trans_inv0 h0.buf h0.pos h0.base h0.val h0.cr hs).inv mask
    · rename_i hd
      have hno : ∀ isTok arg, ¬ Reads mask A.state isTok arg := by
        rintro isTok arg ⟨op, h1, h2, -⟩; rw [ha] at h1; cases h1; rw [hd] at h2; cases h2
      split at hs
      · rename_i str hstr
        unfold keyStep at hs
        simp only at hs
        split at hs
        · rename_i hid
          exact (trans_inv0 h.buf (h.pos0 (by rw [hid]; rfl)) h.base
            (h.value0 (h.pos0 (by rw [hid]; rfl))) (h.cr (by rw [hid]; rfl)) hs).inv mask
        · rename_i hid
          split at hs
          · cases hs
            have : Inv0 (initTok .ParsingDone A) := ⟨h.buf, rfl, Nat.zero_le _, .inr rfl, rfl, rfl⟩
            split
            · exact (⟨this.buf, this.pos, this.base, this.id, this.val, this.cr⟩ : Inv0 (pushes _ (initTok .ParsingDone A))).inv mask
            · exact this.inv mask
          · rename_i c hc
            split at hs
            · cases hs
              have hlt : A.tok.pos < str.length := by
                apply Decidable.byContradiction
                intro hge
                rw [List.getElem?_eq_none (by omega)] at hc
                cases hc
              have hl : str.length ≤ 5 := by
                cases op <;> simp only [stringDefs, Option.some.injEq, reduceCtorEq] at hstr <;>
                  subst hstr <;> decide
              refine ⟨h.buf, ?_, h.base, ?_, ?_, ?_, ?_, ?_⟩
              · show A.tok.pos + 1 ≤ 15; omega
              · intro h; simp [tokTo, adv, hasPos] at h
              · intro _; exact ⟨str, op, ⟨arg, ha, hd, hstr⟩, hlt⟩
              · intro h; simp [tokTo, adv, inTok] at h
              · exact Nat.lt_of_lt_of_le h.val (Nat.pow_le_pow_right (by omega) (Nat.le_succ _))
              · intro _
                refine h.cr ?_
                cases hi : A.tok.id <;> simp only [inTok]
                all_goals
                  obtain ⟨isTok, arg', hr⟩ := h.tok (by rw [hi]; rfl)
                  exact absurd hr (hno _ _)
            · cases hs
      · rename_i hstr
        have hk : A.tok.id ≠ .ParsingKey := by
          intro hk; obtain ⟨_, _, ⟨_, h1, h2, h3⟩, _⟩ := h.key hk; rw [ha] at h1; cases h1
          rw [hstr] at h3; cases h3
        have h0 := h.idle (h.notReads hno) hk
        split at hs
        · cases hs
        · exact (trans_inv0 (A := { A with tokenpos := A.src, out := [] }) h0.buf h0.pos h0.base h0.val h0.cr hs).inv mask

theorem step_ret {A B : Cfg} {r : ElementType} (h : Inv mask A)
    (hs : step e f mask A = (some r, B)) : Inv0 B := by
  unfold step at hs
  simp only at hs
  split at hs
  · rename_i ha
    have hno : ∀ isTok arg, ¬ Reads mask A.state isTok arg := by
      rintro isTok arg ⟨op, h1, -⟩; rw [ha] at h1; cases h1
    have hk : A.tok.id ≠ .ParsingKey := by
      intro hk; obtain ⟨_, _, ⟨_, h1, _⟩, _⟩ := h.key hk; rw [ha] at h1; cases h1
    have h0 := h.idle (h.notReads hno) hk
    exact trans_inv0 h0.buf h0.pos h0.base h0.val h0.cr hs
  · rename_i op arg ha
    split at hs
    · rename_i isTok hd
      have hk : A.tok.id ≠ .ParsingKey := by
        intro hk; obtain ⟨_, _, ⟨_, h1, h2, _⟩, _⟩ := h.key hk; rw [ha] at h1; cases h1
        rw [hd] at h2; cases h2
      split at hs
      · rename_i hid
        exact trans_inv0 h.buf (h.pos0 (by rw [hid]; rfl)) h.base
            (h.value0 (h.pos0 (by rw [hid]; rfl))) (h.cr (by rw [hid]; rfl)) hs
      · rename_i hid
        split at hs
        · exact (tokStep_err h.buf hs).1
        · rename_i hm
          have hno : ∀ isTok arg, ¬ Reads mask A.state isTok arg := by
            rintro isTok arg ⟨op, h1, -, h3⟩; rw [ha] at h1; cases h1; exact hm h3
          have h0 := h.idle (h.notReads hno) hk
          split at hs
          · cases hs
          · exact trans_inv0 h0.buf h0.pos h0.base h0.val h0.cr hs
    · rename_i hd
      have hno : ∀ isTok arg, ¬ Reads mask A.state isTok arg := by
        rintro isTok arg ⟨op, h1, h2, -⟩; rw [ha] at h1; cases h1; rw [hd] at h2; cases h2
      split at hs
      · rename_i str hstr
        unfold keyStep at hs
        simp only at hs
        split at hs
        · rename_i hid
          exact trans_inv0 h.buf (h.pos0 (by rw [hid]; rfl)) h.base
            (h.value0 (h.pos0 (by rw [hid]; rfl))) (h.cr (by rw [hid]; rfl)) hs
        · split at hs
          · cases hs
          · split at hs
            · cases hs
            · cases hs
              exact ⟨h.buf, rfl, Nat.zero_le _, .inr rfl, rfl, rfl⟩
      · rename_i hstr
        have hk : A.tok.id ≠ .ParsingKey := by
          intro hk; obtain ⟨_, _, ⟨_, h1, h2, h3⟩, _⟩ := h.key hk; rw [ha] at h1; cases h1
          rw [hstr] at h3; cases h3
        have h0 := h.idle (h.notReads hno) hk
        split at hs
        · split at hs <;> cases hs <;> exact ⟨h0.buf, h0.pos, h0.base, h0.id, h0.val, h0.cr⟩
        · exact trans_inv0 (A := { A with tokenpos := A.src, out := [] }) h0.buf h0.pos h0.base h0.val h0.cr hs

end Mach

end TW
