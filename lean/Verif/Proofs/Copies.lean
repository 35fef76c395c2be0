import Verif.Proofs.Masks

/-!
# Copies of the scanner

A copy has a new token state: the entity buffer has another content and another address.
-/

namespace TW

open Spec

namespace Mach

variable {e : Enc} {f : Nat → Byte} {mask : Nat}

/-- Token states that differ in what is not used of the buffer. -/
structure TokEq (t u : TokState) : Prop where
  id : u.id = t.id
  cr : u.eolCR = t.eolCR
  pos : u.pos = t.pos
  value : u.value = t.value
  base : t.id = .ParsingNumericBaseEntity → u.base = t.base
  buf : t.id ≠ .ParsingKey → u.buf.take t.pos = t.buf.take t.pos
  len : u.buf.length = t.buf.length

theorem TokEq.init {t u : TokState} (h : TokEq t u) (id : TokId) : TokEq (t.init id) (u.init id) :=
  ⟨rfl, rfl, rfl, rfl, fun _ => rfl, fun _ => rfl, h.len⟩

theorem TokEq.idTo {t u : TokState} (h : TokEq t u) (id : TokId) (hid : id ≠ .ParsingNumericBaseEntity)
    (hk : t.id ≠ .ParsingKey) : TokEq { t with id } { u with id } :=
  ⟨rfl, h.cr, h.pos, h.value, fun hx => absurd hx hid, fun _ => h.buf hk, h.len⟩

theorem TokEq.store {t u : TokState} (h : TokEq t u) (ch : Byte) (hlt : t.pos < t.buf.length) (hk : t.id ≠ .ParsingKey) :
    TokEq { t with buf := t.buf.set t.pos ch, pos := t.pos + 1 } { u with buf := u.buf.set u.pos ch, pos := u.pos + 1 } := by
  refine ⟨h.id, h.cr, by simp [h.pos], h.value, h.base, fun _ => ?_, by simp [h.len]⟩
  show (u.buf.set u.pos ch).take (t.pos + 1) = (t.buf.set t.pos ch).take (t.pos + 1)
  rw [h.pos, List.take_add_one, List.take_add_one, List.take_set_of_le (Nat.le_refl _), List.take_set_of_le (Nat.le_refl _),
    h.buf hk, List.getElem?_set_self hlt, List.getElem?_set_self (by rw [h.len]; exact hlt)]

/-- Configurations that differ in what is not used of the buffer, and its address. -/
structure Twin (A B : Cfg) : Prop where
  eq : B = { A with tok := B.tok, bufAddr := B.bufAddr }
  tok : TokEq A.tok B.tok
  user : userChar B = userChar A

theorem Twin.mk' {A : Cfg} {u : TokState} {a : Nat} (h : TokEq A.tok u) (hu : found A.entityMap a = userChar A) :
    Twin A { A with tok := u, bufAddr := a } := ⟨rfl, h, hu⟩

/-- What is the same. -/
theorem Twin.elim {A B : Cfg} (h : Twin A B) : ∃ u a, B = { A with tok := u, bufAddr := a } ∧ TokEq A.tok u ∧
    found A.entityMap a = userChar A := by
  refine ⟨B.tok, B.bufAddr, h.eq, h.tok, ?_⟩
  have := h.user
  have he : B.entityMap = A.entityMap := by rw [h.eq]
  unfold userChar at this ⊢
  rw [he] at this
  exact this

theorem Twin.trans {A B A' : Cfg} {sd : Elem} {rt : ElementType} {x : Option ElementType} (h : Twin A B)
    (hk : A.tok.id ≠ .ParsingKey) (ha : Mach.trans e f sd rt A = (x, A')) : ∃ B', Mach.trans e f sd rt B = (x, B') ∧ Twin A' B' := by
  obtain ⟨u, a, rfl, h1, h2⟩ := h.elim
  have h3 := h1.idTo .Start (by decide) hk
  unfold Mach.trans at ha ⊢
  simp only at ha ⊢
  rw [show Mach.cls e f { A with tok := u, bufAddr := a } = Mach.cls e f A from rfl]
  split at ha
  · cases ha; exact ⟨_, rfl, rfl, h3, h2⟩
  · split at ha
    · cases ha; exact ⟨_, rfl, rfl, h3, h2⟩
    · split at ha <;> cases ha <;> exact ⟨_, rfl, rfl, h3, h2⟩

theorem takeWhile_set {l : List Nat} : ∀ {p : Nat}, p < l.length →
    (l.set p 0).takeWhile (· ≠ 0) = (l.take p).takeWhile (· ≠ 0) := by
  induction l with
  | nil => intro p h; cases h
  | cons a l ih =>
    intro p h
    cases p with
    | zero => simp
    | succ p =>
      simp only [List.set_cons_succ, List.take_succ_cons, List.takeWhile_cons]
      rw [ih (by simpa using h)]

theorem Twin.tokStep {A B A' : Cfg} {isTok : Cc → Bool} {x : Option ElementType} (h : Twin A B) (hi : Inv mask A)
    (ha : Mach.tokStep e f isTok A = (x, A')) : ∃ B', Mach.tokStep e f isTok B = (x, B') ∧ Twin A' B' := by
  obtain ⟨u, a, rfl, h1, h2⟩ := h.elim
  have hlt : A.tok.pos < A.tok.buf.length := by rw [hi.buf]; have := hi.pos; omega
  have hc : Mach.cls e f { A with tok := u, bufAddr := a } = Mach.cls e f A := rfl
  have hc' : Mach.asc e f { A with tok := u, bufAddr := a } = Mach.asc e f A := rfl
  have fb : ∀ {C : Cfg} {v : TokState}, C.tok.id ≠ .ParsingKey → TokEq C.tok v → C.entityMap = A.entityMap → C.bufAddr = A.bufAddr →
      Twin (fallback C) (fallback { C with tok := v, bufAddr := a }) := by
    intro C v hk h hm hb
    refine ⟨?_, h.init _, ?_⟩
    · have : fallbackChars v = fallbackChars C.tok := by
        unfold fallbackChars
        rw [h.id, h.pos, h.buf hk]
      unfold fallback initTok tokTo pushes
      simp only [this]
    · show found C.entityMap a = found C.entityMap C.bufAddr
      rw [hm, hb, h2]
      rfl
  unfold Mach.tokStep at ha ⊢
  simp only [hc, hc'] at ha ⊢
  rw [h1.id]
  have hk : ∀ {i : TokId}, A.tok.id = i → i ≠ .ParsingKey → A.tok.id ≠ .ParsingKey := fun h h' h2 => h' (h ▸ h2)
  cases hid : A.tok.id <;> simp only [hid] at ha
  · cases ha; exact ⟨_, rfl, rfl, h1.idTo _ (by decide) (hk hid (by decide)), h2⟩
  · cases ha; exact ⟨_, rfl, rfl, h1, h2⟩
  · cases ha; exact ⟨_, rfl, rfl, h1.init _, h2⟩
  · simp only
    split at ha <;> rename_i hx <;> cases ha
    · rw [if_pos hx]; exact ⟨_, rfl, rfl, h1.idTo _ (by decide) (hk hid (by decide)), h2⟩
    · rw [if_neg hx]; exact ⟨_, rfl, rfl, h1.idTo _ (by decide) (hk hid (by decide)), h2⟩
  · simp only
    have hb := h1.buf (hk hid (by decide))
    split at ha <;> rename_i hx <;> cases ha
    · rw [if_pos hx]
      exact ⟨_, rfl, rfl, ⟨rfl, h1.cr, h1.pos, h1.value, fun _ => rfl, fun _ => hb, h1.len⟩, h2⟩
    · rw [if_neg hx]
      exact ⟨_, rfl, rfl, ⟨rfl, h1.cr, h1.pos, h1.value, fun _ => rfl, fun _ => hb, h1.len⟩, h2⟩
  · simp only
    split at ha
    · rename_i h59
      rw [if_pos h59, h1.value]
      split at ha <;> rename_i hx <;> cases ha
      · rw [if_pos hx]
        exact ⟨_, rfl, fb (C := Mach.store 59 A) (hk hid (by decide)) (h1.store 59 hlt (hk hid (by decide))) rfl rfl⟩
      · rw [if_neg hx]
        exact ⟨_, rfl, rfl, h1.init _, h2⟩
    · rename_i h59
      rw [if_neg h59, h1.base hid]
      split at ha <;> rename_i hx <;> cases ha
      · rw [if_pos hx]
        exact ⟨_, rfl, fb (hk hid (by decide)) h1 rfl rfl⟩
      · rw [if_neg hx]
        refine ⟨_, rfl, ?_⟩
        have hst := h1.store (Mach.asc e f A) hlt (hk hid (by decide))
        have ht : TokEq { { A.tok with buf := A.tok.buf.set A.tok.pos (Mach.asc e f A), pos := A.tok.pos + 1 } with
              value := (A.tok.value * A.tok.base + hexVal (Mach.asc e f A)) % 2 ^ 64 }
            { { u with buf := u.buf.set u.pos (Mach.asc e f A), pos := u.pos + 1 } with
              value := (u.value * u.base + hexVal (Mach.asc e f A)) % 2 ^ 64 } :=
          ⟨hst.id, hst.cr, hst.pos, by simp only [h1.value, h1.base hid], hst.base, hst.buf, hst.len⟩
        have key : ∀ C D : Cfg, D = { C with tok := D.tok, bufAddr := a } → TokEq C.tok D.tok → C.tok.id ≠ .ParsingKey →
            C.entityMap = A.entityMap → C.bufAddr = A.bufAddr →
            Twin (if C.tok.pos = 16 then fallback C else C) (if D.tok.pos = 16 then fallback D else D) := by
          intro C D hD hT hk1 hk2 hk3
          rw [hT.pos]
          by_cases hp : C.tok.pos = 16
          · rw [if_pos hp, if_pos hp, hD]
            exact fb hk1 hT hk2 hk3
          · rw [if_neg hp, if_neg hp, hD]
            refine ⟨rfl, hT, ?_⟩
            show found C.entityMap a = found C.entityMap C.bufAddr
            rw [hk2, hk3, h2]
            rfl
        exact key (adv e f (tokTo (fun t =>
            { t with value := (t.value * t.base + hexVal (Mach.asc e f A)) % 2 ^ 64 })
            (Mach.store (Mach.asc e f A) A))) (adv e f (tokTo (fun t =>
            { t with value := (t.value * t.base + hexVal (Mach.asc e f A)) % 2 ^ 64 })
            (Mach.store (Mach.asc e f A) { A with tok := u, bufAddr := a }))) rfl ht (hk hid (by decide)) rfl rfl
  · simp only
    rw [h1.pos]
    split at ha
    · rename_i hc3
      rw [if_pos hc3]
      cases ha
      exact ⟨_, rfl, rfl, h1.store _ hlt (hk hid (by decide)), h2⟩
    · rename_i hc3
      rw [if_neg hc3]
      split at ha
      · rename_i h59
        rw [if_pos h59]
        have hb : (u.buf.set A.tok.pos 0).takeWhile (· ≠ 0) = (A.tok.buf.set A.tok.pos 0).takeWhile (· ≠ 0) := by
          rw [takeWhile_set hlt, takeWhile_set (by rw [h1.len]; exact hlt), h1.buf (hk hid (by decide))]
        rw [hb]
        have he : ∀ name, entityChar { A with tok := u, bufAddr := a } name = entityChar A name := by
          intro name
          have h3 : found A.entityMap a = found A.entityMap A.bufAddr := h2
          unfold found at h3
          unfold entityChar
          split
          · rfl
          · simp only
            cases hm : A.entityMap with
            | none => rfl
            | some m => rw [hm] at h3; exact h3
        rw [he]
        have hl : (u.buf.set A.tok.pos 0).length = (A.tok.buf.set A.tok.pos 0).length := by simp [h1.len]
        split at ha <;> cases ha
        · exact ⟨_, rfl, rfl, ⟨rfl, rfl, rfl, rfl, fun _ => rfl, fun _ => rfl, hl⟩, h2⟩
        · exact ⟨_, rfl, rfl, ⟨rfl, rfl, rfl, rfl, fun _ => rfl, fun _ => rfl, hl⟩, h2⟩
      · rename_i h59
        rw [if_neg h59]
        cases ha
        exact ⟨_, rfl, fb (hk hid (by decide)) h1 rfl rfl⟩
  · simp only
    split at ha
    · rename_i ht
      rw [if_pos ht]
      cases ha
      refine ⟨_, rfl, ?_⟩
      have hcr : ∀ b, TokEq { A.tok with eolCR := b } { u with eolCR := b } := fun b =>
        ⟨h1.id, rfl, h1.pos, h1.value, h1.base, h1.buf, h1.len⟩
      unfold charStep
      rw [hc']
      split
      · exact ⟨rfl, hcr _, h2⟩
      · split
        · simp only [h1.cr]
          split
          · exact ⟨rfl, hcr _, h2⟩
          · exact ⟨rfl, hcr _, h2⟩
        · exact ⟨rfl, hcr _, h2⟩
    · rename_i ht
      rw [if_neg ht]
      split at ha
      · rename_i ht
        rw [if_pos ht]
        cases ha
        exact ⟨_, rfl, rfl, h1.idTo _ (by decide) (hk hid (by decide)), h2⟩
      · rename_i ht
        rw [if_neg ht]
        cases ha
        exact ⟨_, rfl, rfl, h1.init _, h2⟩

theorem Twin.step {A B A' : Cfg} {x : Option ElementType} (h : Twin A B) (hi : Inv mask A)
    (ha : step e f mask A = (x, A')) : ∃ B', step e f mask B = (x, B') ∧ Twin A' B' := by
  obtain ⟨u, a, rfl, h1, h2⟩ := h.elim
  have hc : Mach.cls e f { A with tok := u, bufAddr := a } = Mach.cls e f A := rfl
  have hc' : Mach.asc e f { A with tok := u, bufAddr := a } = Mach.asc e f A := rfl
  unfold Mach.step at ha ⊢
  simp only [hc] at ha ⊢
  have hk : (∀ op arg, (stm A.state).action = some (op, arg) → stringDefs op = none) → A.tok.id ≠ .ParsingKey := by
    intro hn hid
    obtain ⟨str, op, ⟨arg, hx, -, hy⟩, -⟩ := hi.key hid
    rw [hn _ _ hx] at hy
    cases hy
  split at ha
  · rename_i hact
    exact h.trans (hk (by rw [hact]; simp)) ha
  · rename_i op arg hact
    have hk' : stringDefs op = none → A.tok.id ≠ .ParsingKey := fun hs => hk (by
      rw [hact]; intro op' arg' hx; cases hx; exact hs)
    split at ha
    · rename_i isTok htd
      have hs : stringDefs op = none := by
        cases op <;> first | rfl | cases htd
      rw [h1.id]
      split at ha
      · rename_i hd; rw [if_pos hd]; exact h.trans (hk' hs) ha
      · rename_i hd
        rw [if_neg hd]
        split at ha
        · rename_i hm; rw [if_pos hm]; exact h.tokStep hi ha
        · rename_i hm
          rw [if_neg hm]
          split at ha
          · rename_i ht; rw [if_pos ht]; cases ha; exact ⟨_, rfl, rfl, h1, h2⟩
          · rename_i ht; rw [if_neg ht]; exact h.trans (hk' hs) ha
    · split at ha
      · unfold keyStep at ha ⊢
        simp only [hc, hc'] at ha ⊢
        rw [h1.id, h1.pos]
        split at ha
        · rename_i hd; rw [if_pos hd]; exact h.trans (by rw [hd]; decide) ha
        · rename_i hd
          rw [if_neg hd]
          split at ha
          · cases ha
            refine ⟨_, rfl, ?_⟩
            split
            · exact ⟨rfl, h1.init _, h2⟩
            · exact ⟨rfl, h1.init _, h2⟩
          · split at ha
            · rename_i hk
              rw [if_pos hk]
              cases ha
              exact ⟨_, rfl, rfl, ⟨rfl, h1.cr, by simp [tokTo, adv, h1.pos], h1.value, (nomatch ·), (absurd rfl ·), h1.len⟩, h2⟩
            · rename_i hk
              rw [if_neg hk]
              cases ha
              exact ⟨_, rfl, rfl, h1.init _, h2⟩
      · split at ha
        · rename_i hn
          rw [if_pos hn]
          split at ha <;> cases ha <;> exact ⟨_, rfl, rfl, h1, h2⟩
        · rename_i hn
          rw [if_neg hn]
          exact Twin.trans (A := { A with tokenpos := A.src, out := [] })
            (B := { A with tok := u, bufAddr := a, tokenpos := A.src, out := [] }) ⟨rfl, h1, h2⟩ (hk' (by assumption)) ha

theorem Twin.steps {A A' : Cfg} {m : Nat} (ha : Steps e f mask m A A') : ∀ {B : Cfg}, Twin A B → Inv mask A →
    ∃ B', Steps e f mask m B B' ∧ Twin A' B' := by
  induction ha with
  | refl A => exact fun h _ => ⟨_, .refl _, h⟩
  | cons h1 _ ih =>
    intro B h hi
    obtain ⟨B1, g1, g2⟩ := h.step hi h1
    obtain ⟨B2, g3, g4⟩ := ih g2 (step_inv hi h1)
    exact ⟨B2, .cons g1 g3, g4⟩

theorem Twin.fin {A B A' : Cfg} {m : Nat} {r : ElementType} (h : Twin A B) (hi : Inv mask A)
    (ha : Fin e f mask m A r A') : ∃ B', Fin e f mask m B r B' ∧ Twin A' B' := by
  obtain ⟨C, h1, h2⟩ := ha
  obtain ⟨D, g1, g2⟩ := h.steps h1 hi
  obtain ⟨B', g3, g4⟩ := g2.step (steps_inv h1 hi) h2
  exact ⟨B', ⟨D, g1, g3⟩, g4⟩

theorem Twin.clr {A B : Cfg} (h : Twin A B) (c : Bool) : Twin (clr c A) (clr c B) := by
  obtain ⟨u, a, rfl, h1, h2⟩ := h.elim
  unfold Mach.clr
  split
  · exact ⟨rfl, h1, h2⟩
  · exact h

/-- Twins have the same sessions. -/
theorem Twin.runs {cs : List (Nat × Bool)} : ∀ {A B : Cfg} {os : List (ElementType × Cfg)}, Twin A B → Inv0 A →
    Runs e f cs A os → ∃ os', Runs e f cs B os' ∧ (∀ sp, os'.map (Mach.obs sp) = os.map (Mach.obs sp)) ∧
      Twin (last A cs os) (last B cs os') := by
  induction cs with
  | nil =>
    intro A B os h _ hr
    cases hr
    exact ⟨[], .nil B, fun _ => rfl, h⟩
  | cons x cs ih =>
    intro A B os h hi hr
    cases hr with
    | @cons _ c _ _ A' m r os g1 g2 =>
      obtain ⟨B', k1, k2⟩ := h.fin (hi.inv _) g1
      have iA : Inv0 A' := by
        obtain ⟨D, d1, d2⟩ := g1
        exact step_ret (steps_inv d1 (hi.inv _)) d2
      obtain ⟨os', j1, j2, j3⟩ := ih (k2.clr c) (iA.clr _) g2
      refine ⟨(r, B') :: os', .cons k1 j1, fun sp => ?_, j3⟩
      rw [List.map_cons, List.map_cons, j2 sp]
      congr 1
      rw [k2.eq]
      rfl

/-- Twins are symmetric. -/
theorem Twin.symm {A B : Cfg} (h : Twin A B) : Twin B A := by
  obtain ⟨u, a, rfl, h1, h2⟩ := h.elim
  refine ⟨rfl, ⟨h1.id.symm, h1.cr.symm, h1.pos.symm, h1.value.symm, ?_, ?_, h1.len.symm⟩, h.user.symm⟩
  · intro h
    rw [show u.id = A.tok.id from h1.id] at h
    exact (h1.base h).symm
  · intro h
    rw [show u.id = A.tok.id from h1.id] at h
    show A.tok.buf.take u.pos = u.buf.take u.pos
    rw [h1.pos, h1.buf h]

/-- The token reader is only used in states that read tokens or key words. -/
def Used (A : Cfg) : Prop := A.tok.id ≠ .Start → ∃ op arg, (stm A.state).action = some (op, arg) ∧
  (tokenDefs op ≠ none ∨ stringDefs op ≠ none)

theorem step_used {A B : Cfg} {x : Option ElementType} (hu : Used A) (h : Mach.step e f mask A = (x, B)) :
    Used B ∧ ∀ r, x = some r → r ≠ .ErrorOccurred → B.tok.id = .Start := by
  have tr : ∀ {C : Cfg} {sd : Elem} {rt : ElementType}, Mach.trans e f sd rt C = (x, B) →
      Used B ∧ ∀ r, x = some r → r ≠ .ErrorOccurred → B.tok.id = .Start :=
    fun h => ⟨fun hne => absurd (trans_ret h).1 hne, fun _ _ _ => (trans_ret h).1⟩
  have hs : ∀ {op arg}, (stm A.state).action = some (op, arg) → (tokenDefs op ≠ none ∨ stringDefs op ≠ none) →
      B.state = A.state → Used B := by
    intro op arg h1 h2 h3 _
    rw [h3]
    exact ⟨op, arg, h1, h2⟩
  unfold Mach.step at h
  simp only at h
  split at h
  · exact tr h
  · rename_i op arg hact
    split at h
    · rename_i isTok htd
      have hne : tokenDefs op ≠ none := by rw [htd]; simp
      split at h
      · exact tr h
      · split at h
        · refine ⟨hs hact (.inl hne) (tokStep_shape h).1, ?_⟩
          rintro r rfl hr
          exact tokStep_start h
        · split at h
          · cases h; exact ⟨hs hact (.inl hne) rfl, nofun⟩
          · exact tr h
    · rename_i htd
      split at h
      · rename_i str hstr
        have hne : stringDefs op ≠ none := by rw [hstr]; simp
        unfold keyStep at h
        simp only at h
        split at h
        · exact tr h
        · split at h
          · cases h
            refine ⟨hs hact (.inr hne) ?_, nofun⟩
            split <;> rfl
          · split at h
            · cases h; exact ⟨hs hact (.inr hne) rfl, nofun⟩
            · cases h
              refine ⟨hs hact (.inr hne) rfl, ?_⟩
              rintro r h hr
              cases h
              exact absurd rfl hr
      · rename_i hsd
        have hid : A.tok.id = .Start := by
          apply Decidable.byContradiction
          intro hid
          obtain ⟨op', arg', h1, h2⟩ := hu hid
          rw [hact] at h1
          cases h1
          rcases h2 with h2 | h2
          · exact h2 htd
          · exact h2 hsd
        split at h
        · split at h <;> cases h <;> exact ⟨fun hne => absurd hid hne, fun _ _ _ => hid⟩
        · exact tr h

theorem fin_used {A B : Cfg} {m : Nat} {r : ElementType} (hu : Used A) (h : Fin e f mask m A r B) :
    Used B ∧ (r ≠ .ErrorOccurred → B.tok.id = .Start) := by
  obtain ⟨C, h1, h2⟩ := h
  have hC : Used C := by
    clear h2
    induction h1 with
    | refl => exact hu
    | cons h _ ih => exact ih (step_used hu h).1
  have := step_used hC h2
  exact ⟨this.1, this.2 r rfl⟩

theorem reach_used {A0 A : Cfg} (hu : Used A0) (h : Reach e f A0 A) : Used A := by
  induction h with
  | refl => exact hu
  | @call mask m c A B r h1 h2 ih =>
    have := (fin_used ih h2).1
    unfold Mach.clr
    split <;> exact this

/-- After calls that ended with an item, or no calls, the token state is unused. -/
theorem runs_unused {cs : List (Nat × Bool)} : ∀ {A : Cfg} {os : List (ElementType × Cfg)}, Used A → Inv0 A →
    Runs e f cs A os → (os = [] → A.tok.id = .Start) → (∀ x, os.getLast? = some x → x.1 ≠ .ErrorOccurred) →
    (last A cs os).tok.id = .Start ∧ Inv0 (last A cs os) ∧ (last A cs os).entityMap = A.entityMap ∧
      userChar (last A cs os) = userChar A ∧ (last A cs os).output = A.output := by
  induction cs with
  | nil =>
    intro A os _ hi hr h0 _
    cases hr
    exact ⟨h0 rfl, hi, rfl, rfl, rfl⟩
  | cons x cs ih =>
    intro A os hu hi hr _ hl
    cases hr with
    | @cons _ c _ _ A' m r os g1 g2 =>
      have iA : Inv0 A' := by
        obtain ⟨D, d1, d2⟩ := g1
        exact step_ret (steps_inv d1 (hi.inv _)) d2
      obtain ⟨u1, u2⟩ := fin_used hu g1
      have hs : Same A A' := by
        obtain ⟨D, d1, d2⟩ := g1
        exact (steps_same d1).trans (step_same d2)
      have uc : Used (Mach.clr c A') := by unfold Mach.clr; split <;> exact u1
      have hid : ∀ i, A'.tok.id = i → (Mach.clr c A').tok.id = i := by intro i h; unfold Mach.clr; split <;> exact h
      have hm : (Mach.clr c A').entityMap = A'.entityMap ∧ userChar (Mach.clr c A') = userChar A' ∧
          (Mach.clr c A').output = A'.output := by
        unfold Mach.clr; split <;> exact ⟨rfl, rfl, rfl⟩
      have e1 : os = [] → (Mach.clr c A').tok.id = .Start := by
        intro h
        subst h
        exact hid _ (u2 (hl (r, A') rfl))
      have e2 : ∀ x, os.getLast? = some x → x.1 ≠ .ErrorOccurred := by
        intro x hx
        refine hl x ?_
        cases os with
        | nil => cases hx
        | cons y os => exact hx
      obtain ⟨k1, k2, k3, k4, k5⟩ := ih uc (iA.clr c) g2 e1 e2
      refine ⟨k1, k2, k3.trans (hm.1.trans ?_), k4.trans (hm.2.1.trans ?_), k5.trans (hm.2.2.trans ?_)⟩
      · exact hs.2.1
      · unfold userChar; rw [hs.2.1, hs.2.2]
      · exact hs.1

/-- The copy of a configuration. -/
def copied' (a : Nat) (A : Cfg) : Cfg := { A with tok := TokState.new, bufAddr := a }

theorem Twin.copy {A : Cfg} {a : Nat} (hi : Inv0 A) (hid : A.tok.id = .Start) (hu : found A.entityMap a = userChar A) :
    Twin A (copied' a A) := by
  refine ⟨rfl, ⟨hid.symm, hi.cr.symm, hi.pos.symm, hi.val.symm, ?_, ?_, ?_⟩, hu⟩
  · rw [hid]; exact (nomatch ·)
  · rw [hi.pos]; exact fun _ => rfl
  · rw [hi.buf]; rfl

end Mach

open Mach

/-- The copy of a scanner. -/
theorem SRel0.copy {ι : Type} [Iter ι] {f : Nat → Byte} {S : Source ι f} {e : Enc} {A : Cfg}
    {s : Scanner (TextScanner ι)} (h : SRel0 S e s A) (hp : ∀ p, A.output = .isolatin p → p = 1) (a : Nat) : SRel0 S e (s.copy a) (copied' a A) := by
  obtain ⟨⟨ld, t, tp, rfl, h1, h2⟩, h3, h4⟩ := h
  refine ⟨⟨ld, t, tp, ?_, h1, h2⟩, ?_, ⟨rfl, rfl, Nat.zero_le _, .inl rfl, rfl, rfl⟩⟩
  · unfold Scanner.copy lift copied'
    simp only
    cases ho : A.output <;> simp
    exact (hp _ ho).symm
  · rcases h3 with h3 | ⟨h3, h5, h6⟩
    · exact .inl h3
    · exact .inr ⟨h3, h5, rfl⟩

end TW
