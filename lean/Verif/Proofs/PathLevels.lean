import Verif.Proofs.PathCount

/-!
# The tokens of contents count the contents of the elements
-/

namespace TW.Path

open Spec.Path (Open)

variable {a : Atm} {lab : List (List Edge)} {key : List Byte} {s : Sel} {ty : Int} {G : List Edge → Prop}
  {q : List Open} {R : List (List Nat)} {B : List Edge → Nat} {cs : List (Nat × Nat)} {toks toks' : List Token}

/-- What a content makes of the token of an output. -/
def adv (c : Core) : Core := if c.mask.matches .Content then Sel.tick (Sel.tick c) else c

/-- What some contents make of it. -/
def advs : Nat → Core → Core
  | 0, c => c
  | n + 1, c => adv (advs n c)

/-- The content behind `n` others is reported. -/
def shown (c : Core) (n : Nat) : Bool := leafHit .Content (advs n c)

/-- The contents counted by a token: those directly in the element, or also those of all elements in it. -/
def num (follow : Bool) (c : Nat × Nat) : Nat := if follow then c.2 else c.1

/-- The numbers of contents after a content. -/
def bump : List (Nat × Nat) → List (Nat × Nat)
  | [] => []
  | c :: cs => (c.1 + 1, c.2 + 1) :: cs.map fun d => (d.1, d.2 + 1)

/-- The numbers of contents in the open elements after an item. -/
def sumsAfter (q : List Open) (cs : List (Nat × Nat)) (type : ElementType) : List (Nat × Nat) :=
  match type, q with
  | .OpenTag, _ => (0, 0) :: cs
  | .Content, _ => bump cs
  | .CloseTag, _ :: _ => cs.tail
  | .CloseTagIm, _ :: _ => cs.tail
  | _, _ => cs

/-- The tokens of outputs of contents have counted the contents of their levels. -/
def Lev (a : Atm) (ty : Int) (toks : List Token) : List (List Nat) → List (Nat × Nat) → Prop
  | [], [] => True
  | T :: R, c :: cs => (∀ k, R.flatten.length ≤ k → k < R.flatten.length + T.length → ∀ (tk : Token) (st : State), toks[k]? = some tk →
      a[tk.stateidx]? = some st → st.core.typeidx = ty → st.core.mask = contMask → tk.core = advs (num st.core.follow c) st.core) ∧
      Lev a ty toks R cs
  | _, _ => False

/-- The tokens of the outputs count. -/
structure Rg (a : Atm) (ty : Int) (ph : Ph) (R : List (List Nat)) (cs : List (Nat × Nat)) (toks : List Token) : Prop where
  lev : Lev a ty toks R cs
  val : ∀ name, ph = .named name → ∀ (k : Nat) (tk : Token) (st : State), R.tail.flatten.length ≤ k → toks[k]? = some tk →
    a[tk.stateidx]? = some st → st.core.typeidx = ty → st.core.mask = valMask → tk.core.mask.matches .TagAttribValue = true →
    tk.core = st.core
  zero : ph ≠ .off → ∃ cs', cs = (0, 0) :: cs'

/-- A content mask that may be used up. -/
def Used (c : Core) : Prop := c.mask = contMask ∨ c.mask = {}

theorem Used.tick {c : Core} (h : Used c) : Used (Sel.tick c) := by
  rcases tick_mask c with e | e
  · unfold Used; rw [e]; exact h
  · exact .inr e

theorem Used.adv {c : Core} (h : Used c) : Used (adv c) := by
  unfold Path.adv
  split
  · exact h.tick.tick
  · exact h

theorem Used.advs {c : Core} (h : Used c) : ∀ n, Used (advs n c)
  | 0 => h
  | n + 1 => (Used.advs h n).adv

theorem Used.rejects {c : Core} (h : Used c) (type : ElementType) : c.mask.rejects type = false := by
  rcases h with h | h <;> rw [h] <;> cases type <;> decide

theorem Used.matches {c : Core} (h : Used c) {type : ElementType} (ht : type ≠ .Content) : c.mask.matches type = false := by
  rcases h with h | h <;> rw [h] <;> revert ht <;> cases type <;> decide

theorem Used.leaf {c : Core} (h : Used c) {type : ElementType} (h0 : c.typeidx ≠ 0) :
    leafCore type c = if type = .Content then Path.adv c else c := by
  unfold leafCore
  by_cases ht : type = .Content
  · subst ht
    simp only [if_true, ne_eq, h0, not_false_eq_true]
    rw [show (if c.mask.matches .Content = true then Sel.tick (Sel.tick c) else c) = Path.adv c from rfl, if_neg]
    rw [h.adv.rejects]
    decide
  · simp only [h.matches ht, Bool.false_eq_true, if_false, ht]
    rw [if_neg]
    rw [h.rejects]
    decide

theorem advs_flat {c : Core} (h : c.cntEnd = -1) (n : Nat) : advs n c = c := by
  have ht : Sel.tick c = c := by unfold Sel.tick; rw [if_pos h]
  induction n with
  | zero => rfl
  | succ n ih =>
    show adv (advs n c) = c
    rw [ih]
    unfold adv
    rw [ht, ht, ite_self]

theorem fires_flat {c : Core} (h : c.cntEnd = -1) : Sel.fires (Sel.tick c) = true := by
  have ht : Sel.tick c = c := by unfold Sel.tick; rw [if_pos h]
  rw [ht]
  simp [Sel.fires, h]

theorem shown_flat {c : Core} (h : c.cntEnd = -1) (hm : c.mask = contMask) (n : Nat) : shown c n = true := by
  unfold shown leafHit
  rw [advs_flat h, fires_flat h, hm]
  decide

/-- Outputs without ranges do not count. -/
theorem Lev.flat (tok : ∀ tk ∈ toks, ∃ st, a[tk.stateidx]? = some st ∧ (st.steady → tk.core = st.core)) (hf : Flat a ty) :
    ∀ (R : List (List Nat)) (cs : List (Nat × Nat)), cs.length = R.length → Lev a ty toks R cs := by
  intro R
  induction R with
  | nil => intro cs h; cases cs with
    | nil => trivial
    | cons c cs => simp at h
  | cons T R ih =>
    intro cs h
    cases cs with
    | nil => simp at h
    | cons c cs =>
      refine ⟨fun k _ _ tk st k1 k2 k3 k4 => ?_, ih cs (by simpa using h)⟩
      obtain ⟨st', e1, e2⟩ := tok tk (List.mem_of_getElem? k1)
      rw [k2] at e1
      cases e1
      have he := hf _ st k2 k3 (by rw [k4]; decide)
      rw [advs_flat he]
      exact e2 ⟨he, by rw [k4]; rfl⟩

theorem Lev.mono {R : List (List Nat)} : ∀ {cs}, Lev a ty toks R cs → (∀ k, k < R.flatten.length → ∀ tk', toks'[k]? = some tk' → toks[k]? = some tk') →
    Lev a ty toks' R cs := by
  induction R with
  | nil => intro cs h _; cases cs with
    | nil => trivial
    | cons _ _ => exact h.elim
  | cons T R ih =>
    intro cs h hk
    cases cs with
    | nil => exact h.elim
    | cons c cs =>
      refine ⟨fun k k1 k2 tk st k3 => h.1 k k1 k2 tk st (hk k ?_ tk k3), ih h.2 fun k k1 => hk k ?_⟩
      · rw [List.flatten_cons, List.length_append]; omega
      · rw [List.flatten_cons, List.length_append]; omega

theorem Lev.length {R : List (List Nat)} : ∀ {cs}, Lev a ty toks R cs → cs.length = R.length := by
  induction R with
  | nil => intro cs h; cases cs with
    | nil => rfl
    | cons _ _ => exact h.elim
  | cons T R ih =>
    intro cs h
    cases cs with
    | nil => exact h.elim
    | cons c cs => simp [ih h.2]

/-- The levels below at a content. -/
theorem Lev.below {R : List (List Nat)} : ∀ {cs}, Lev a ty toks R cs →
    (∀ k, k < R.flatten.length → ∀ tk', toks'[k]? = some tk' → ∃ tk, toks[k]? = some tk ∧ tk'.stateidx = tk.stateidx ∧
      ∀ st, a[tk.stateidx]? = some st → st.core.typeidx = ty → st.core.mask = contMask →
        tk'.core = if st.core.follow = true then adv tk.core else tk.core) →
    Lev a ty toks' R (cs.map fun d => (d.1, d.2 + 1)) := by
  induction R with
  | nil => intro cs h _; cases cs with
    | nil => exact h
    | cons _ _ => exact h.elim
  | cons T R ih =>
    intro cs h hk
    cases cs with
    | nil => exact h.elim
    | cons c cs =>
      refine ⟨fun k k1 k2 tk' st k3 k4 k5 k6 => ?_, ih h.2 fun k k1 => hk k ?_⟩
      · obtain ⟨tk, e1, e2, e3⟩ := hk k (by rw [List.flatten_cons, List.length_append]; omega) tk' k3
        rw [e2] at k4
        rw [e3 st k4 k5 k6, h.1 k k1 k2 tk st e1 k4 k5 k6]
        unfold num
        cases st.core.follow <;> rfl
      · rw [List.flatten_cons, List.length_append]; omega

/-- The levels at an item that is neither an open nor a close tag. -/
theorem Lev.item {T : List Nat} {R : List (List Nat)} (type : ElementType) (h : Lev a ty toks (T :: R) cs)
    (hk : ∀ k, k < (T :: R).flatten.length → ∀ tk', toks'[k]? = some tk' → ∃ tk, toks[k]? = some tk ∧ tk'.stateidx = tk.stateidx ∧
      ∀ st, a[tk.stateidx]? = some st → st.core.typeidx = ty → st.core.mask = contMask →
        tk'.core = if type = .Content ∧ (R.flatten.length ≤ k ∨ st.core.follow = true) then adv tk.core else tk.core) :
    Lev a ty toks' (T :: R) (if type = .Content then bump cs else cs) := by
  by_cases ht : type = .Content
  · rw [if_pos ht]
    cases cs with
    | nil => exact h.elim
    | cons c cs =>
      refine ⟨fun k k1 k2 tk' st k3 k4 k5 k6 => ?_, h.2.below fun k k1 tk' k2 => ?_⟩
      · obtain ⟨tk, e1, e2, e3⟩ := hk k (by rw [List.flatten_cons, List.length_append]; omega) tk' k3
        rw [e2] at k4
        rw [e3 st k4 k5 k6, if_pos ⟨ht, .inl k1⟩, h.1 k k1 k2 tk st e1 k4 k5 k6]
        unfold num
        cases st.core.follow <;> rfl
      · obtain ⟨tk, e1, e2, e3⟩ := hk k (by rw [List.flatten_cons, List.length_append]; omega) tk' k2
        refine ⟨tk, e1, e2, fun st m1 m2 m3 => ?_⟩
        rw [e3 st m1 m2 m3]
        have : ¬ R.flatten.length ≤ k := by omega
        simp only [ht, this, true_and, false_or]
  · rw [if_neg ht]
    have : ∀ (R' : List (List Nat)) cs, R'.flatten.length ≤ (T :: R).flatten.length → Lev a ty toks R' cs → Lev a ty toks' R' cs := by
      intro R'
      induction R' with
      | nil => intro cs _ h; cases cs with
        | nil => trivial
        | cons _ _ => exact h.elim
      | cons T' R' ih =>
        intro cs hl h
        cases cs with
        | nil => exact h.elim
        | cons c cs =>
          rw [List.flatten_cons, List.length_append] at hl
          refine ⟨fun k k1 k2 tk' st k3 k4 k5 k6 => ?_, ih cs (by omega) h.2⟩
          obtain ⟨tk, e1, e2, e3⟩ := hk k (by omega) tk' k3
          rw [e2] at k4
          rw [e3 st k4 k5 k6, if_neg (fun h => ht h.1), h.1 k k1 k2 tk st e1 k4 k5 k6]
    exact this _ _ (Nat.le_refl _) h

/-- Fresh tokens for contents on the top level. -/
theorem Lev.more {T X : List Nat} {R : List (List Nat)} {c : Nat × Nat} (h : Lev a ty toks (T :: R) (c :: cs))
    (hX : ∀ k, R.flatten.length + T.length ≤ k → ∀ (tk : Token) (st : State), toks[k]? = some tk → a[tk.stateidx]? = some st →
      st.core.typeidx = ty → st.core.mask = contMask → c = (0, 0) ∧ tk.core = st.core) : Lev a ty toks ((T ++ X) :: R) (c :: cs) := by
  refine ⟨fun k k1 k2 tk st k3 k4 k5 k6 => ?_, h.2⟩
  by_cases hk : k < R.flatten.length + T.length
  · exact h.1 k k1 hk tk st k3 k4 k5 k6
  · obtain ⟨rfl, e⟩ := hX k (by omega) tk st k3 k4 k5 k6
    rw [e]
    unfold num
    cases st.core.follow <;> rfl

/-! ## Counting -/

/-- The token belongs to a state and reports. -/
def hitAt (toks : List Token) (j : Nat) (type : ElementType) (i : Nat) : Bool :=
  match toks[i]? with
  | some t => t.stateidx == j && leafHit type t.core
  | none => false

theorem hitAt_live {toks : List Token} {j : Nat} {type : ElementType} {i : Nat} (h : hitAt toks j type i = true) :
    live toks j type i = true := by
  unfold hitAt at h
  unfold live
  cases ht : toks[i]? with
  | none => rw [ht] at h; cases h
  | some t =>
    rw [ht] at h
    simp only [Bool.and_eq_true, leafHit] at h ⊢
    exact ⟨h.1, h.2.1⟩

theorem countP_and (p r : Nat → Bool) (h : Bool) (vs : List Nat) (hp : ∀ i ∈ vs, p i = (r i && h)) :
    vs.countP p = if h = true then vs.countP r else 0 := by
  have : vs.countP p = vs.countP (fun i => r i && h) := List.countP_congr fun i hi => by rw [hp i hi]
  rw [this]
  cases h with
  | true => simp
  | false => simp

/-- The ways to the elements around, where the content is in the range. -/
def belowR (B : List Edge → Nat) (h : Nat → Bool) (L : List Edge) : List Open → List (Nat × Nat) → Nat
  | _ :: q, c :: cs => (if h c.2 then W B L q else 0) + belowR B h L q cs
  | _, _ => 0

theorem belowR_all (h : Nat → Bool) (hh : ∀ n, h n = true) (L : List Edge) : ∀ (q : List Open) (cs : List (Nat × Nat)), cs.length = q.length →
    belowR B h L q cs = below B L q := by
  intro q
  induction q with
  | nil => intro cs _; cases cs <;> rfl
  | cons x q ih =>
    intro cs hl
    cases cs with
    | nil => simp at hl
    | cons c cs =>
      show (if h c.2 then W B L q else 0) + belowR B h L q cs = W B L q + below B L q
      rw [hh, if_pos rfl, ih cs (by simpa using hl)]

theorem belowR_zero (h : Nat → Bool) (L : List Edge) : ∀ (q : List Open) (cs : List (Nat × Nat)), below B L q = 0 → belowR B h L q cs = 0 := by
  intro q
  induction q with
  | nil => intro cs _; cases cs <;> rfl
  | cons x q ih =>
    intro cs hb
    cases cs with
    | nil => rfl
    | cons c cs =>
      have hb : W B L q + below B L q = 0 := hb
      show (if h c.2 then W B L q else 0) + belowR B h L q cs = 0
      rw [ih cs (by omega), show W B L q = 0 by omega, ite_self]

theorem Cnt.length : ∀ (q : List Open) (T : List Nat) (R : List (List Nat)), Cnt a lab G B (T :: R) q → R.length = q.length := by
  intro q
  induction q with
  | nil => intro T R h; rw [h.2.2]; rfl
  | cons x q ih =>
    intro T R h
    cases R with
    | nil => exact h.2.2.elim
    | cons T' R => simp [ih T' R h.2.2]

theorem mem_fols {l : List Nat} : ∀ {off i : Nat}, i ∈ fols a off l → ∃ j, l[i - off]? = some j ∧ isFollow a j = true := by
  induction l with
  | nil => intro off i h; cases h
  | cons x l ih =>
    intro off i h
    rcases List.mem_append.1 h with h | h
    · split at h
      · rename_i hf
        rw [List.mem_singleton] at h
        subst h
        exact ⟨x, by simp, hf⟩
      · cases h
    · have h1 := (fols_ge a l _ i h).1
      obtain ⟨j, h2, h3⟩ := ih h
      refine ⟨j, ?_, h3⟩
      rw [show i - off = i - (off + 1) + 1 by omega, List.getElem?_cons_succ]
      exact h2

theorem fols_mem {l : List Nat} : ∀ {off k j : Nat}, l[k]? = some j → isFollow a j = true → off + k ∈ fols a off l := by
  induction l with
  | nil => intro off k j h; simp at h
  | cons x l ih =>
    intro off k j h hf
    cases k with
    | zero =>
      simp only [List.getElem?_cons_zero, Option.some.injEq] at h
      subst h
      apply List.mem_append_left
      rw [hf]
      simp
    | succ k =>
      rw [List.getElem?_cons_succ] at h
      apply List.mem_append_right
      have := ih (off := off + 1) h hf
      rw [show off + (k + 1) = off + 1 + k by omega]
      exact this

theorem fols_nodup (l : List Nat) : ∀ off, (fols a off l).Nodup := by
  induction l with
  | nil => intro off; exact List.nodup_nil
  | cons x l ih =>
    intro off
    show ((if isFollow a x then [off] else []) ++ fols a (off + 1) l).Nodup
    split
    · rw [List.singleton_append, List.nodup_cons]
      refine ⟨fun h => ?_, ih _⟩
      have := (fols_ge a l _ off h).1
      omega
    · exact ih _

/-- The tokens of the levels below that report. -/
theorem Lev.count {t : Nat} {st : State} (hst : a[t]? = some st) (hty : st.core.typeidx = ty) (hm : st.core.mask = contMask)
    {L : List Edge} (hL : lab[t]? = some L) (hG : G L) (htr : trig a t = false) :
    ∀ (R : List (List Nat)) (cs : List (Nat × Nat)) (q : List Open) (T : List Nat) (post : List Nat), Lev a ty toks R cs → Cnt a lab G B (T :: R) q →
      toks.map (·.stateidx) = R.reverse.flatten ++ post → st.core.follow = true →
      (fols a 0 R.reverse.flatten).countP (hitAt toks t .Content) = belowR B (shown st.core) L q cs := by
  have hif : st.core.follow = true → isFollow a t = true := fun h => by unfold isFollow; rw [hst]; exact h
  intro R
  induction R with
  | nil =>
    intro cs q T post _ hc _ _
    cases q with
    | nil => cases cs <;> rfl
    | cons x q => exact hc.2.2.elim
  | cons T1 R ih =>
    intro cs q T post h hc hi hfo
    cases q with
    | nil =>
      have := hc.2.2
      cases this
    | cons x q =>
      cases cs with
      | nil => exact h.elim
      | cons c cs =>
        have hc' : Cnt a lab G B (T1 :: R) q := hc.2.2
        rw [List.reverse_cons, List.flatten_append, fols_append, List.countP_append, Nat.zero_add]
        simp only [List.flatten_cons, List.flatten_nil, List.append_nil]
        have hi' : toks.map (·.stateidx) = R.reverse.flatten ++ (T1 ++ post) := by
          rw [hi]; simp
        rw [ih cs q T1 (T1 ++ post) h.2 hc' hi' hfo]
        have hlen : R.reverse.flatten.length = R.flatten.length := by
          rw [List.length_flatten, List.length_flatten, List.map_reverse, List.sum_reverse]
        have key : (fols a R.reverse.flatten.length T1).countP (hitAt toks t .Content) =
            if shown st.core c.2 = true then (fols a R.reverse.flatten.length T1).countP (fun i => (R.reverse.flatten ++ T1 ++ post)[i]? == some t) else 0 := by
          apply countP_and
          intro i hii
          have hge := fols_ge a T1 _ i hii
          have hx : (R.reverse.flatten ++ T1 ++ post)[i]? = toks[i]?.map (·.stateidx) := by
            rw [List.append_assoc, ← hi', List.getElem?_map]
          rw [hx]
          unfold hitAt
          cases hti : toks[i]? with
          | none => rfl
          | some tk =>
            simp only [Option.map_some]
            by_cases e : tk.stateidx = t
            · have := h.1 i (by rw [← hlen]; exact hge.1) (by rw [← hlen]; exact hge.2) tk st hti (by rw [e]; exact hst) hty hm
              rw [this]
              simp only [e, beq_self_eq_true, Bool.true_and]
              unfold num shown
              rw [if_pos hfo]
            · have e1 : (tk.stateidx == t) = false := beq_eq_false_iff_ne.2 e
              have e2 : (some tk.stateidx == some t) = false := by simpa using e
              rw [e1, e2, Bool.false_and, Bool.false_and]
        rw [key, fols_count, hif hfo, if_pos rfl]
        show _ = (if shown st.core c.2 = true then W B L q else 0) + belowR B (shown st.core) L q cs
        rw [(by cases q <;> exact hc'.1 t L hL hG htr : T1.count t = W B L q)]
        omega

end TW.Path
