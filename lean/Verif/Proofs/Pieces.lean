import Verif.Proofs.Session
import Verif.Spec.Pieces

/-!
# The machine with another output character set
-/

namespace TW

open Spec

namespace Mach

variable {e : Enc} {f : Nat → Byte} {mask : Nat}

/-- The configuration with another output character set and a text of parts. -/
def asOut (e : Enc) (f : Nat → Byte) (out : Enc) (ps : List Part) (A : Cfg) : Cfg := { A with output := out, out := pieced e f out ps }

/-- The parts are in order, between the position of the token and the current character. -/
structure Placed (e : Enc) (f : Nat → Byte) (ps : List Part) (A : Cfg) : Prop where
  order : InOrder e f A.tokenpos (offsets ps)
  before : ∀ k ∈ offsets ps, k < A.src
  start : ∃ i, offs e f 0 i = A.src
  token : A.tokenpos ≤ A.src

theorem pieced_append (out : Enc) (ps qs : List Part) : pieced e f out (ps ++ qs) = pieced e f out ps ++ pieced e f out qs := by
  simp [pieced]

theorem pieced_codes (out : Enc) (cs : List UChar) : pieced e f out (cs.map .code) = cs.flatMap out.print := by
  unfold pieced
  rw [List.flatMap_map]
  rfl

theorem offsets_append (ps qs : List Part) : offsets (ps ++ qs) = offsets ps ++ offsets qs := List.filterMap_append ..

theorem offsets_codes (cs : List UChar) : offsets (cs.map .code) = [] := by
  induction cs with
  | nil => rfl
  | cons c cs ih => simp [offsets]

theorem pushes_as (cs : List UChar) (out : Enc) (ps : List Part) (A : Cfg) :
    pushes cs (asOut e f out ps A) = asOut e f out (ps ++ cs.map .code) (pushes cs A) := by
  unfold pushes asOut
  rw [pieced_append, pieced_codes]

theorem fallback_as (out : Enc) (ps : List Part) (A : Cfg) :
    fallback (asOut e f out ps A) = asOut e f out (ps ++ (fallbackChars A.tok).map .code) (fallback A) := by
  unfold fallback
  rw [show (asOut e f out ps A).tok = A.tok from rfl, pushes_as]
  rfl

/-- The result of a step in other output character sets. -/
def Uniform (e : Enc) (f : Nat → Byte) (F : Cfg → Option ElementType × Cfg) (ps : List Part) (A : Cfg) : Prop :=
  ∃ ps', (∀ out, F (asOut e f out ps A) = ((F A).1, asOut e f out ps' (F A).2)) ∧ (Placed e f ps A → Placed e f ps' (F A).2)

theorem Placed.codes {ps : List Part} {A : Cfg} (h : Placed e f ps A) (cs : List UChar) : Placed e f (ps ++ cs.map .code) A := by
  have : offsets (ps ++ cs.map .code) = offsets ps := by rw [offsets_append, offsets_codes, List.append_nil]
  exact ⟨this ▸ h.order, this ▸ h.before, h.start, h.token⟩

theorem Placed.keep {ps : List Part} {A B : Cfg} (h : Placed e f ps A) (h1 : B.src = A.src) (h2 : B.tokenpos = A.tokenpos) : Placed e f ps B :=
  ⟨h2 ▸ h.order, h1 ▸ h.before, h1 ▸ h.start, by rw [h1, h2]; exact h.token⟩

theorem Placed.next {ps : List Part} {A B : Cfg} (h : Placed e f ps A) (h1 : B.src = A.src + ulen e f A.src) (h2 : B.tokenpos = A.tokenpos) :
    Placed e f ps B := by
  obtain ⟨i, hi⟩ := h.start
  refine ⟨h2 ▸ h.order, fun k hk => ?_, ⟨i + 1, ?_⟩, ?_⟩
  · have := h.before k hk; omega
  · rw [h1, offs, hi]
  · have := h.token; omega

theorem Placed.char {ps : List Part} {A B : Cfg} (h : Placed e f ps A) (h1 : B.src = A.src + ulen e f A.src) (h2 : B.tokenpos = A.tokenpos) :
    Placed e f (ps ++ [.char A.src]) B := by
  obtain ⟨i, hi⟩ := h.start
  have hu := ulen_pos e f A.src
  have ho : offsets (ps ++ [.char A.src]) = offsets ps ++ [A.src] := by rw [offsets_append]; rfl
  refine ⟨?_, fun k hk => ?_, ⟨i + 1, ?_⟩, ?_⟩
  · rw [ho, h2]
    refine ⟨List.pairwise_append.2 ⟨h.order.1, List.pairwise_singleton _ _, fun a ha b hb => ?_⟩, fun k hk => ?_⟩
    · rw [List.mem_singleton.1 hb]
      exact h.before a ha
    · rcases List.mem_append.1 hk with hk | hk
      · exact h.order.2 k hk
      · rw [List.mem_singleton.1 hk]
        exact ⟨h.token, i, hi⟩
  · rw [ho] at hk
    rcases List.mem_append.1 hk with hk | hk
    · have := h.before k hk; omega
    · rw [List.mem_singleton.1 hk]; omega
  · rw [h1, offs, hi]
  · have := h.token; omega

theorem Placed.fresh {ps : List Part} {A B : Cfg} (h : Placed e f ps A) (h1 : B.src = A.src) (h2 : B.tokenpos = A.src) : Placed e f [] B :=
  ⟨⟨.nil, (fun _ h => nomatch h)⟩, (fun _ h => nomatch h), h1 ▸ h.start, by omega⟩

theorem trans_as (sd : Elem) (rt : ElementType) (ps : List Part) (A : Cfg) : 
    (∀ out, trans e f sd rt (asOut e f out ps A) = ((trans e f sd rt A).1, asOut e f out ps (trans e f sd rt A).2)) ∧
      (Placed e f ps A → Placed e f ps (trans e f sd rt A).2) := by
  have hc : ∀ out, cls e f (asOut e f out ps A) = cls e f A := fun _ => rfl
  unfold trans
  cases h1 : sd.next (cls e f A) with
  | some ns => 
    simp only [hc, h1]
    exact ⟨fun out => rfl, fun h => h.next (by rfl) (by rfl)⟩
  | none =>
    cases h2 : sd.fallback with
    | some fb =>
      simp only [hc, h1]
      exact ⟨fun out => rfl, fun h => h.keep (by rfl) (by rfl)⟩
    | none =>
      cases h3 : sd.miss <;> simp only [hc, h1] <;> exact ⟨fun out => rfl, fun h => h.keep (by rfl) (by rfl)⟩

theorem charStep_as (ps : List Part) (A : Cfg) : ∃ ps', (∀ out, charStep e f (asOut e f out ps A) = asOut e f out ps' (charStep e f A)) ∧
    (Placed e f ps A → Placed e f ps' (adv e f (charStep e f A))) := by
  have ha : ∀ out, asc e f (asOut e f out ps A) = asc e f A := fun _ => rfl
  unfold charStep
  by_cases h1 : asc e f A = 13
  · simp only [ha, h1, if_true]
    refine ⟨ps ++ [10].map .code, fun out => by rw [pushes_as]; rfl, fun h => (h.codes [10]).next (by rfl) (by rfl)⟩
  · by_cases h2 : asc e f A = 10
    · simp only [ha, if_neg h1, if_pos h2, show ∀ out, (asOut e f out ps A).tok = A.tok from fun _ => rfl]
      by_cases h3 : A.tok.eolCR
      · simp only [if_pos h3]
        exact ⟨ps, fun out => rfl, fun h => h.next (by rfl) (by rfl)⟩
      · simp only [if_neg h3]
        exact ⟨ps ++ [10].map .code, fun out => by rw [pushes_as]; rfl, fun h => (h.codes [10]).next (by rfl) (by rfl)⟩
    · simp only [ha, if_neg h1, if_neg h2]
      refine ⟨ps ++ [.char A.src], fun out => ?_, fun h => h.char (by rfl) (by rfl)⟩
      unfold tokTo asOut
      simp only
      rw [pieced_append]
      congr 2
      simp [pieced, Part.bytes, copied]

theorem tokStep_as (isTok : Cc → Bool) (ps : List Part) (A : Cfg) : Uniform e f (tokStep e f isTok) ps A := by
  have ha : ∀ out, asc e f (asOut e f out ps A) = asc e f A := fun _ => rfl
  have hc : ∀ out, cls e f (asOut e f out ps A) = cls e f A := fun _ => rfl
  have ht : ∀ out, (asOut e f out ps A).tok = A.tok := fun _ => rfl
  unfold Uniform tokStep
  cases h : A.tok.id with
  | Start =>
    simp only [ht, h]
    exact ⟨[], fun out => rfl, fun h => h.fresh (by rfl) (by rfl)⟩
  | ParsingToken =>
    simp only [ht, h, hc]
    by_cases h1 : isTok (cls e f A) = true
    · simp only [if_pos h1]
      obtain ⟨ps', h2, h3⟩ := charStep_as (e := e) (f := f) ps A
      exact ⟨ps', fun out => by rw [h2]; rfl, h3⟩
    · simp only [if_neg h1]
      by_cases h2 : cls e f A = .Amp
      · simp only [if_pos h2]
        exact ⟨ps, fun out => rfl, fun h => h.next (by rfl) (by rfl)⟩
      · simp only [if_neg h2]
        exact ⟨ps, fun out => rfl, fun h => h.keep (by rfl) (by rfl)⟩
  | ParsingEntity =>
    simp only [ht, h, ha]
    by_cases h1 : asc e f A = 35
    · simp only [if_pos h1]
      exact ⟨ps, fun out => rfl, fun h => h.next (by rfl) (by rfl)⟩
    · simp only [if_neg h1]
      exact ⟨ps, fun out => rfl, fun h => h.keep (by rfl) (by rfl)⟩
  | ParsingNumericEntity =>
    simp only [ht, h, ha]
    by_cases h1 : asc e f A = 120
    · simp only [if_pos h1]
      exact ⟨ps, fun out => rfl, fun h => h.next (by rfl) (by rfl)⟩
    · simp only [if_neg h1]
      exact ⟨ps, fun out => rfl, fun h => h.keep (by rfl) (by rfl)⟩
  | ParsingNumericBaseEntity =>
    simp only [ht, h, ha]
    by_cases h1 : asc e f A = 59
    · simp only [if_pos h1]
      by_cases h2 : 0xFFFFFFFF < A.tok.value
      · simp only [if_pos h2]
        refine ⟨ps ++ (fallbackChars (store 59 A).tok).map .code, fun out => ?_, fun h => (h.codes _).keep (by rfl) (by rfl)⟩
        rw [show store 59 (asOut e f out ps A) = asOut e f out ps (store 59 A) from rfl, fallback_as]
      · simp only [if_neg h2]
        refine ⟨ps ++ [A.tok.value % 2 ^ 32].map .code, fun out => ?_, fun h => (h.codes _).next (by rfl) (by rfl)⟩
        rw [pushes_as]; rfl
    · simp only [if_neg h1]
      by_cases h2 : A.tok.base ≤ hexVal (asc e f A)
      · simp only [if_pos h2]
        exact ⟨ps ++ (fallbackChars A.tok).map .code, fun out => by rw [fallback_as], fun h => (h.codes _).keep (by rfl) (by rfl)⟩
      · simp only [if_neg h2]
        have hs : ∀ out, adv e f (tokTo (fun t => { t with value := (t.value * t.base + hexVal (asc e f A)) % 2 ^ 64 }) (store (asc e f A) (asOut e f out ps A))) =
            asOut e f out ps (adv e f (tokTo (fun t => { t with value := (t.value * t.base + hexVal (asc e f A)) % 2 ^ 64 }) (store (asc e f A) A))) := fun _ => rfl
        simp only [hs]
        have hp : (adv e f (tokTo (fun t => { t with value := (t.value * t.base + hexVal (asc e f A)) % 2 ^ 64 }) (store (asc e f A) A))).src =
            A.src + ulen e f A.src := rfl
        have hq : (adv e f (tokTo (fun t => { t with value := (t.value * t.base + hexVal (asc e f A)) % 2 ^ 64 }) (store (asc e f A) A))).tokenpos =
            A.tokenpos := rfl
        generalize adv e f (tokTo (fun t => { t with value := (t.value * t.base + hexVal (asc e f A)) % 2 ^ 64 }) (store (asc e f A) A)) = B at *
        simp only [show ∀ out, (asOut e f out ps B).tok = B.tok from fun _ => rfl]
        by_cases h3 : B.tok.pos = 16
        · simp only [if_pos h3]
          exact ⟨ps ++ (fallbackChars B.tok).map .code, fun out => by rw [fallback_as], fun h => (h.codes _).next (by exact hp) (by exact hq)⟩
        · simp only [if_neg h3]
          exact ⟨ps, fun out => rfl, fun h => h.next hp hq⟩
  | ParsingNamedEntity =>
    simp only [ht, h, ha, hc]
    by_cases h1 : A.tok.pos < 15 ∧ asc e f A ≠ 59 ∧ cls e f A = .Any
    · simp only [if_pos h1]
      exact ⟨ps, fun out => rfl, fun h => h.next (by rfl) (by rfl)⟩
    · simp only [if_neg h1]
      by_cases h2 : asc e f A = 59
      · simp only [if_pos h2, show ∀ out name, entityChar (asOut e f out ps A) name = entityChar A name from fun _ _ => rfl]
        cases h3 : entityChar A ((A.tok.buf.set A.tok.pos 0).takeWhile (· ≠ 0)) with
        | some c =>
          simp only
          refine ⟨ps ++ [c].map .code, fun out => ?_, fun h => (h.codes _).next (by rfl) (by rfl)⟩
          rw [show ∀ g, tokTo g (asOut e f out ps A) = asOut e f out ps (tokTo g A) from fun _ => rfl, pushes_as]
          rfl
        | none =>
          exact ⟨ps, fun out => rfl, fun h => h.keep (by rfl) (by rfl)⟩
      · simp only [if_neg h2]
        exact ⟨ps ++ (fallbackChars A.tok).map .code, fun out => by rw [fallback_as], fun h => (h.codes _).keep (by rfl) (by rfl)⟩
  | ParsingKey =>
    simp only [ht, h]
    exact ⟨ps, fun out => rfl, fun h => h.keep (by rfl) (by rfl)⟩
  | ParsingDone =>
    simp only [ht, h]
    exact ⟨ps, fun out => rfl, fun h => h⟩

theorem keyStep_as (sd : Elem) (op : STMAction) (str : List Byte) (ps : List Part) (A : Cfg) : Uniform e f (keyStep e f sd op str) ps A := by
  have ha : ∀ out, asc e f (asOut e f out ps A) = asc e f A := fun _ => rfl
  have hc : ∀ out, cls e f (asOut e f out ps A) = cls e f A := fun _ => rfl
  have ht : ∀ out, (asOut e f out ps A).tok = A.tok := fun _ => rfl
  unfold Uniform keyStep
  simp only [ht]
  by_cases h0 : A.tok.id = .ParsingDone
  · simp only [if_pos h0]
    exact ⟨ps, trans_as ..⟩
  · simp only [if_neg h0]
    cases h1 : str[A.tok.pos]? with
    | none =>
      simp only
      by_cases h2 : op = .ExpectIdentifierXML
      · simp only [if_pos h2]
        refine ⟨ps ++ [63, 120, 109, 108].map .code, fun out => ?_, fun h => (h.codes _).keep (by rfl) (by rfl)⟩
        rw [show initTok .ParsingDone (asOut e f out ps A) = asOut e f out ps (initTok .ParsingDone A) from rfl, pushes_as]
      · simp only [if_neg h2]
        exact ⟨ps, fun out => rfl, fun h => h.keep (by rfl) (by rfl)⟩
    | some c =>
      simp only [ha, hc]
      by_cases h2 : asc e f A = c
      · simp only [if_pos h2]
        exact ⟨ps, fun out => rfl, fun h => h.next (by rfl) (by rfl)⟩
      · simp only [if_neg h2]
        exact ⟨ps, fun out => rfl, fun h => h.keep (by rfl) (by rfl)⟩

theorem step_as (ps : List Part) (A : Cfg) : Uniform e f (step e f mask) ps A := by
  have hc : ∀ out, cls e f (asOut e f out ps A) = cls e f A := fun _ => rfl
  have ht : ∀ out, (asOut e f out ps A).tok = A.tok := fun _ => rfl
  have hs : ∀ out, (asOut e f out ps A).state = A.state := fun _ => rfl
  unfold Uniform step
  simp only [ht, hc, hs]
  cases h1 : (stm A.state).action with
  | none => exact ⟨ps, trans_as ..⟩
  | some oa =>
    obtain ⟨op, arg⟩ := oa
    simp only
    cases h2 : tokenDefs op with
    | some isTok =>
      simp only
      by_cases h3 : A.tok.id = .ParsingDone
      · simp only [if_pos h3]
        exact ⟨ps, trans_as ..⟩
      · simp only [if_neg h3]
        by_cases h4 : mask.testBit arg.toNat = true
        · simp only [if_pos h4]
          exact tokStep_as ..
        · simp only [if_neg h4]
          by_cases h5 : (isTok (cls e f A) || decide (cls e f A = .Amp)) = true
          · simp only [if_pos h5]
            exact ⟨ps, fun out => rfl, fun h => h.next (by rfl) (by rfl)⟩
          · simp only [if_neg h5]
            exact ⟨ps, trans_as ..⟩
    | none =>
      simp only
      cases h3 : stringDefs op with
      | some str => exact keyStep_as ..
      | none =>
        simp only
        by_cases h4 : (stm A.state).nofnext = 0
        · simp only [if_pos h4]
          cases h5 : (stm A.state).fallback with
          | some fb => exact ⟨[], fun out => rfl, fun h => h.fresh (by rfl) (by rfl)⟩
          | none => exact ⟨[], fun out => rfl, fun h => h.fresh (by rfl) (by rfl)⟩
        · simp only [if_neg h4]
          have := trans_as (e := e) (f := f) (stm A.state) arg [] { A with tokenpos := A.src, out := [] }
          exact ⟨[], this.1, fun h => this.2 (h.fresh rfl rfl)⟩

theorem steps_as {m : Nat} {A B : Cfg} (h : Steps e f mask m A B) : ∀ ps, ∃ ps',
    (∀ out, Steps e f mask m (asOut e f out ps A) (asOut e f out ps' B)) ∧ (Placed e f ps A → Placed e f ps' B) := by
  induction h with
  | refl A => exact fun ps => ⟨ps, fun _ => .refl _, fun h => h⟩
  | cons h _ ih =>
    intro ps
    obtain ⟨qs, h1, h2⟩ := step_as (e := e) (f := f) (mask := mask) ps _
    rw [h] at h1 h2
    obtain ⟨rs, h3, h4⟩ := ih qs
    exact ⟨rs, fun out => .cons (h1 out) (h3 out), fun h => h4 (h2 h)⟩

theorem fin_as {m : Nat} {A B : Cfg} {r : ElementType} (h : Fin e f mask m A r B) (ps : List Part) : ∃ ps',
    (∀ out, Fin e f mask m (asOut e f out ps A) r (asOut e f out ps' B)) ∧ (Placed e f ps A → Placed e f ps' B) := by
  obtain ⟨C, h1, h2⟩ := h
  obtain ⟨qs, h3, h4⟩ := steps_as h1 ps
  obtain ⟨rs, h5, h6⟩ := step_as (e := e) (f := f) (mask := mask) qs C
  rw [h2] at h5 h6
  exact ⟨rs, fun out => ⟨_, h3 out, h5 out⟩, fun h => h6 (h4 h)⟩

theorem runs_as {cs : List (Nat × Bool)} {A : Cfg} {os : List (ElementType × Cfg)} (h : Runs e f cs A os) : ∀ ps, Placed e f ps A → ∃ pss,
    pss.length = os.length ∧ (∀ out, Runs e f cs (asOut e f out ps A) ((os.zip pss).map fun x => (x.1.1, asOut e f out x.2 x.1.2))) ∧
      ∀ x ∈ os.zip pss, Placed e f x.2 x.1.2 := by
  induction h with
  | nil A => exact fun ps _ => ⟨[], rfl, fun _ => .nil _, fun _ h => nomatch h⟩
  | @cons mask c cs A B m r os h1 _ ih =>
    intro ps hp
    obtain ⟨qs, h3, h4⟩ := fin_as h1 ps
    have hq := h4 hp
    obtain ⟨pss, h5, h6, h7⟩ := ih qs (by cases c <;> exact hq.keep (by rfl) (by rfl))
    refine ⟨qs :: pss, by simp [h5], fun out => ?_, fun x hx => ?_⟩
    · refine .cons (h3 out) ?_
      have := h6 out
      cases c <;> exact this
    · rcases List.mem_cons.1 hx with rfl | hx
      · exact hq
      · exact h7 x hx

end Mach

end TW
