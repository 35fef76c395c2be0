import Verif.Proofs.PathLevels
import Verif.Proofs.PathCalls

/-!
# The selector keeps counting the ways over the items
-/

namespace TW.Path

open Spec.Path (Open)

variable {a : Atm} {lab : List (List Edge)} {key : List Byte} {s : Sel} {ty : Int} {G : List Edge → Prop}
  {q : List Open} {R : List (List Nat)} {B : List Edge → Nat} {cs : List (Nat × Nat)}

theorem countP_rev (p : Nat → Bool) (R : List (List Nat)) : R.reverse.flatten.countP p = R.flatten.countP p := by
  induction R with
  | nil => rfl
  | cons T R ih =>
    simp only [List.reverse_cons, List.flatten_append, List.countP_append, ih, List.flatten_cons, List.flatten_nil,
      List.append_nil]
    omega

theorem length_rev (R : List (List Nat)) : R.reverse.flatten.length = R.flatten.length := by
  have := countP_rev (fun _ => true) R
  simp at this ⊢

theorem countP_step (p : Nat → Bool) (X : List Nat) (n : Nat) :
    X.countP (fun t => p t && decide (t < n + 1)) =
      X.countP (fun t => p t && decide (t < n)) + if p n then X.count n else 0 := by
  induction X with
  | nil => simp
  | cons y Y ihY =>
    rw [List.countP_cons, List.countP_cons, ihY, List.count_cons]
    by_cases h1 : y = n
    · subst h1
      cases p y <;> simp <;> omega
    · have h2 : (y == n) = false := by simpa using h1
      have h3 : (y < n + 1) ↔ (y < n) := by omega
      rw [h2]
      simp only [h3]
      cases p n <;> simp <;> omega

theorem countP_below (p : Nat → Bool) (X : List Nat) (n : Nat) :
    X.countP (fun t => p t && decide (t < n)) = ((List.range n).map fun t => if p t then X.count t else 0).sum := by
  induction n with
  | zero => simp
  | succ n ih =>
    rw [List.range_succ, List.map_append, List.sum_append, ← ih, countP_step]
    simp only [List.map_cons, List.map_nil, List.sum_cons, List.sum_nil, Nat.add_zero]

/-- What a state is. -/
def coreAt (a : Atm) (t : Nat) : Core :=
  match a[t]? with
  | some st => st.core
  | none => {}

theorem outs_sum (f : List Edge × Core → Nat) : ∀ (a : Atm) (lab : List (List Edge)), lab.length = a.length →
    ((outs a lab ty).map f).sum = ((List.range a.length).map fun t =>
      if typ a t = ty then f ((lab[t]?).getD [], coreAt a t) else 0).sum := by
  intro a
  induction a with
  | nil => intro lab _; simp [outs]
  | cons st a ih =>
    intro lab hl
    cases lab with
    | nil => simp at hl
    | cons L lab =>
      have ih' := ih lab (by simpa using hl)
      rw [List.length_cons, List.range_succ_eq_map, List.map_cons, List.sum_cons, List.map_map]
      have e1 : (List.range a.length).map ((fun t => if typ (st :: a) t = ty then
          f (((L :: lab)[t]?).getD [], coreAt (st :: a) t) else 0) ∘ Nat.succ) =
          (List.range a.length).map fun t => if typ a t = ty then f ((lab[t]?).getD [], coreAt a t) else 0 := by
        apply List.map_congr_left
        intro t _
        simp only [Function.comp, typ, coreAt, Nat.succ_eq_add_one, List.getElem?_cons_succ]
        rfl
      rw [e1, ← ih']
      simp only [outs, List.zip_cons_cons, List.filterMap_cons, typ, coreAt, List.getElem?_cons_zero, Option.getD_some]
      by_cases h : st.core.typeidx = ty
      · simp [h]
      · simp [h]

theorem sum_map_add (l : List Nat) (f g : Nat → Nat) : (l.map f).sum + (l.map g).sum = (l.map fun t => f t + g t).sum := by
  induction l with
  | nil => rfl
  | cons x l ih => simp only [List.map_cons, List.sum_cons, ← ih]; omega

/-- The state of a token reporting at an item of a type. -/
def looking (toks : List Token) (type : ElementType) (i : Nat) : Option Nat :=
  match toks[i]? with
  | some t => if leafHit type t.core then some t.stateidx else none
  | none => none

theorem looking_count (toks : List Token) (type : ElementType) (vs : List Nat) (j : Nat) :
    (vs.filterMap (looking toks type)).count j = vs.countP (hitAt toks j type) := by
  rw [List.count, List.countP_filterMap]
  apply List.countP_congr
  intro i _
  unfold looking hitAt
  cases toks[i]? with
  | none => simp
  | some t =>
    simp only []
    by_cases h : leafHit type t.core = true
    · simp [h]
    · simp [h]

/-- The outputs of a type, state by state. -/
theorem results_sum (ok : Ok a lab) (ty0 : ty ≠ 0) {X vs : List Nat} {toks : List Token} {type : ElementType}
    (hX : ∀ t ∈ X, t < a.length) (htok : ∀ tk ∈ toks, tk.stateidx < a.length) {f : List Edge × Core → Nat}
    (hf : ∀ t st L, a[t]? = some st → st.core.typeidx = ty → lab[t]? = some L →
      (if st.core.mask.empty = true then X.count t else 0) + vs.countP (hitAt toks t type) = f (L, st.core)) :
    ((X.filter (trig a)).map (typ a)).count ty + vs.countP (hits a ty toks type) = ((outs a lab ty).map f).sum := by
  have h1 : ((X.filter (trig a)).map (typ a)).count ty =
      X.countP (fun t => (decide (typ a t = ty) && (coreAt a t).mask.empty) && decide (t < a.length)) := by
    rw [List.count, List.countP_map, List.countP_filter]
    apply List.countP_congr
    intro t ht
    have hlt := hX t ht
    obtain ⟨st, hst⟩ : ∃ st, a[t]? = some st := ⟨_, List.getElem?_eq_getElem hlt⟩
    simp only [Function.comp, Bool.and_eq_true, decide_eq_true_eq, beq_iff_eq, typ, coreAt, trig, hst]
    constructor
    · rintro ⟨e, e1, -⟩; exact ⟨⟨e, e1⟩, hlt⟩
    · rintro ⟨⟨e, e1⟩, -⟩; exact ⟨e, e1, by rw [e]; exact ty0⟩
  have h2 : vs.countP (hits a ty toks type) =
      (vs.filterMap (looking toks type)).countP (fun t => decide (typ a t = ty) && decide (t < a.length)) := by
    rw [List.countP_filterMap]
    apply List.countP_congr
    intro i _
    unfold looking hits
    cases h : toks[i]? with
    | none => simp
    | some t =>
      have := htok t (List.mem_of_getElem? h)
      simp only []
      by_cases h : leafHit type t.core = true
      · simp [h, this]
      · simp [h]
  rw [h1, h2, countP_below (fun t => decide (typ a t = ty) && (coreAt a t).mask.empty), countP_below (fun t => decide (typ a t = ty)),
    sum_map_add, outs_sum f a lab ok.len]
  congr 1
  apply List.map_congr_left
  intro t ht
  have hlt : t < a.length := by simpa using ht
  obtain ⟨st, hst⟩ : ∃ st, a[t]? = some st := ⟨_, List.getElem?_eq_getElem hlt⟩
  obtain ⟨L, hL⟩ : ∃ L, lab[t]? = some L := ⟨_, List.getElem?_eq_getElem (by rw [ok.len]; exact hlt)⟩
  by_cases e : typ a t = ty
  · have e' := e
    unfold typ at e'
    rw [hst] at e'
    have hc : coreAt a t = st.core := by unfold coreAt; rw [hst]
    simp only [e, hL, hc, looking_count, decide_true, Bool.true_and, if_true, Option.getD_some]
    exact hf t st L hst e' hL
  · simp [e]

theorem tag_matches (type : ElementType) (h : tagMask.matches type = true) : type = .OpenTag ∨ type = .HeaderStart := by
  revert h
  cases type <;> decide

theorem Cnt.top {T : List Nat} (h : Cnt a lab G B (T :: R) q) :
    ∀ t L, lab[t]? = some L → G L → trig a t = false → T.count t = W B L q := by
  cases q <;> exact h.1

/-- The tokens visited at an item. -/
theorem Inv.pend {ph : Ph} {T : List Nat} (h : Inv a lab ty G B ph q (T :: R) s) (type : ElementType) (key : List Byte) :
    (Sel.initElement type key s).pending =
      List.range' R.reverse.flatten.length T.length ++ fols a 0 R.reverse.flatten := by
  have hlen : s.tokens.length = R.reverse.flatten.length + T.length := by
    have := congrArg List.length h.idx
    simpa [Sel.idx, List.flatten_append, length_rev] using this
  have h2 : s.follows = fols a 0 (R.reverse.flatten ++ T) := by
    rw [h.follows, h.idx]; simp
  have h3 := h.from'
  rw [show (T :: R).tail = R from rfl, ← length_rev] at h3
  have : R.reverse.flatten.length - (R.reverse.flatten.length + T.length) = 0 := by omega
  unfold Sel.pending Sel.initElement
  simp only []
  split
  · simp only []
    rw [h3, hlen, Nat.add_sub_cancel_left, this, List.drop_zero, h2, List.take_length, takeWhile_fols]
  · simp only []
    rw [h3, hlen, Nat.add_sub_cancel_left, this, List.drop_zero, h2, List.take_length, takeWhile_fols]

theorem init_tokens (type : ElementType) : (Sel.initElement type key s).tokens = s.tokens := by
  unfold Sel.initElement
  simp only []
  split <;> rfl

theorem init_idx (type : ElementType) : (Sel.initElement type key s).idx = s.idx := by
  unfold Sel.initElement Sel.idx
  simp only []
  split <;> rfl

theorem Inv.ready {ph : Ph} (ok : Ok a lab) (h : Inv a lab ty G B ph q R s) (type : ElementType) (key : List Byte) :
    Ready a lab key (Sel.initElement type key s) := by
  have hR : R.tail.flatten.length ≤ R.flatten.length := by
    cases R with
    | nil => simp
    | cons T R => simp
  have hlen : s.tokens.length = R.flatten.length := by
    have := congrArg List.length h.idx
    rw [length_rev] at this
    simpa [Sel.idx] using this
  have h3 := h.from'
  unfold Sel.initElement
  simp only []
  rw [h3, hlen]
  split
  · exact ⟨ok, h.atm, h.tok, rfl, by show _ ≤ s.tokens.length; rw [hlen]; exact Nat.le_refl _, hR, Nat.le_refl _, fun x hx => (h.trg x hx).1⟩
  · exact ⟨ok, h.atm, h.tok, rfl, by show _ ≤ s.tokens.length; rw [hlen]; exact Nat.le_refl _, hR, Nat.le_refl _, fun x hx => (h.trg x hx).1⟩

theorem init_type (type : ElementType) : (Sel.initElement type key s).type = type := by
  unfold Sel.initElement
  simp only []
  split <;> rfl

theorem init_trig (type : ElementType) : (Sel.initElement type key s).triggers = s.triggers := by
  unfold Sel.initElement
  simp only []
  split <;> rfl

theorem init_mask : (Sel.initElement .OpenTag key s).scope.mask.matches .OpenTag = true := by
  unfold Sel.initElement
  simp only [if_true]
  simp [Mask.match, Mask.matches, ElementType.toNat, show Nat.testBit 1024 10 = true from by decide]

theorem nil_or_snoc {α : Type} (l : List α) : l = [] ∨ ∃ L e, l = L ++ [e] := by
  cases h : l.reverse with
  | nil => left; simpa using h
  | cons x y => right; exact ⟨y.reverse, x, by rw [← List.reverse_reverse l, h]; simp⟩

/-- Tokens that are as they were. -/
theorem Inv.all {ph : Ph} {T : List Nat} (h : Inv a lab ty G B ph q (T :: R) s) {j : Nat} {st : State}
    (hs : ∀ (i : Nat) (t : Token), s.tokens[i]? = some t → t.stateidx = j → t.core = st.core) {type : ElementType} (hm : st.core.mask.matches type = true) (key : List Byte) :
    (Sel.initElement type key s).pending.countP (live s.tokens j type) =
      T.count j + if isFollow a j then R.flatten.count j else 0 := by
  have e : ∀ vs : List Nat, vs.countP (live s.tokens j type) = vs.countP (fun i => s.idx[i]? == some j) := by
    intro vs
    apply List.countP_congr
    intro i _
    unfold live Sel.idx
    rw [List.getElem?_map]
    cases hi : s.tokens[i]? with
    | none => simp
    | some t =>
      simp only [Option.map_some]
      by_cases e : t.stateidx = j
      · simp [e, hs i t hi e, hm]
      · simp [e]
  rw [h.pend, List.countP_append, e, e, h.idx]
  have d1 : (T :: R).reverse.flatten = R.reverse.flatten ++ T := by simp
  rw [d1, range_count]
  have := fols_count a R.reverse.flatten j [] T
  simp only [List.length_nil, List.nil_append] at this
  rw [this]
  have c3 : R.reverse.flatten.count j = R.flatten.count j := countP_rev _ R
  rw [c3]

/-- Tokens that stay as they are. -/
theorem Inv.steady {ph : Ph} {T : List Nat} (h : Inv a lab ty G B ph q (T :: R) s) {j : Nat} {st : State} (hst : a[j]? = some st)
    (hs : st.steady) {type : ElementType} (hm : st.core.mask.matches type = true) (key : List Byte) :
    (Sel.initElement type key s).pending.countP (live s.tokens j type) =
      T.count j + if isFollow a j then R.flatten.count j else 0 := by
  refine h.all (fun i t hi e => ?_) hm key
  obtain ⟨st', e1, -, -, -, e5⟩ := h.tok t (List.mem_of_getElem? hi)
  rw [e, hst] at e1
  cases e1
  exact e5 hs

/-- Tokens looking only at their own level. -/
theorem Inv.own {ph : Ph} {T : List Nat} (h : Inv a lab ty G B ph q (T :: R) s) {j : Nat} (hf : isFollow a j = false)
    {type : ElementType} (key : List Byte) :
    (Sel.initElement type key s).pending.countP (live s.tokens j type) =
      (List.range' R.flatten.length T.length).countP (live s.tokens j type) := by
  rw [h.pend, List.countP_append, length_rev]
  have := fols_count a R.reverse.flatten j [] T
  simp only [List.length_nil, List.nil_append, hf, Bool.false_eq_true, if_false] at this
  have z : (fols a 0 R.reverse.flatten).countP (live s.tokens j type) = 0 := by
    rw [List.countP_eq_zero] at this ⊢
    intro i hi hl
    apply this i hi
    have d1 : (T :: R).reverse.flatten = R.reverse.flatten ++ T := by simp
    rw [← d1, ← h.idx]
    unfold live at hl
    unfold Sel.idx
    rw [List.getElem?_map]
    cases ht : s.tokens[i]? with
    | none => rw [ht] at hl; cases hl
    | some t =>
      rw [ht] at hl
      simp only [Bool.and_eq_true, beq_iff_eq] at hl
      simp [hl.1]
  rw [z]; rfl

theorem Inv.own_hit {ph : Ph} {T : List Nat} (h : Inv a lab ty G B ph q (T :: R) s) {j : Nat} (hf : isFollow a j = false)
    {type : ElementType} (key : List Byte) :
    (Sel.initElement type key s).pending.countP (hitAt s.tokens j type) =
      (List.range' R.flatten.length T.length).countP (hitAt s.tokens j type) := by
  have h2 := h.own (type := type) hf key
  rw [h.pend, List.countP_append, length_rev] at h2 ⊢
  have : (fols a 0 R.reverse.flatten).countP (live s.tokens j type) = 0 := by omega
  have : (fols a 0 R.reverse.flatten).countP (hitAt s.tokens j type) = 0 := by
    rw [List.countP_eq_zero] at this ⊢
    exact fun i hi hl => this i hi (hitAt_live hl)
  omega

/-- The tokens of a level. -/
theorem Inv.level {ph : Ph} {T : List Nat} (h : Inv a lab ty G B ph q (T :: R) s) (j : Nat) :
    (List.range' R.flatten.length T.length).countP (fun i => s.idx[i]? == some j) = T.count j := by
  have d1 : (T :: R).reverse.flatten = R.reverse.flatten ++ T := by simp
  rw [h.idx, d1, ← length_rev, range_count]

theorem live_idx {j : Nat} {type : ElementType} {i : Nat} (h : live s.tokens j type i = true) : (s.idx[i]? == some j) = true := by
  unfold live at h
  unfold Sel.idx
  rw [List.getElem?_map]
  cases ht : s.tokens[i]? with
  | none => rw [ht] at h; cases h
  | some t =>
    rw [ht] at h
    simp only [Bool.and_eq_true, beq_iff_eq] at h
    simp [h.1]

theorem Inv.none_live {ph : Ph} {T : List Nat} (h : Inv a lab ty G B ph q (T :: R) s) {j : Nat} (hj : T.count j = 0)
    (type : ElementType) : (List.range' R.flatten.length T.length).countP (live s.tokens j type) = 0 := by
  rw [← h.level j, List.countP_eq_zero] at hj
  rw [List.countP_eq_zero]
  exact fun i hi hl => hj i hi (live_idx hl)

theorem nohit {toks : List Token} {j : Nat} {type : ElementType} {vs : List Nat} (h : vs.countP (live toks j type) = 0) :
    vs.countP (hitAt toks j type) = 0 := by
  rw [List.countP_eq_zero] at h ⊢
  exact fun i hi hl => h i hi (hitAt_live hl)

/-- The visited tokens are those of the level, and those looking further down. -/
theorem Inv.mem_pend {ph : Ph} {T : List Nat} (h : Inv a lab ty G B ph q (T :: R) s) (type : ElementType) (key : List Byte)
    {k : Nat} {tk : Token} (hk : s.tokens[k]? = some tk) :
    k ∈ (Sel.initElement type key s).pending ↔ R.flatten.length ≤ k ∨ isFollow a tk.stateidx = true := by
  have hidx : s.idx = R.reverse.flatten ++ T := by rw [h.idx]; simp
  have hx : (R.reverse.flatten ++ T)[k]? = some tk.stateidx := by
    rw [← hidx]
    unfold Sel.idx
    rw [List.getElem?_map, hk]
    rfl
  have hlen := (List.getElem?_eq_some_iff.1 hx).1
  rw [List.length_append] at hlen
  rw [h.pend, List.mem_append, List.mem_range'_1, length_rev]
  constructor
  · rintro (h1 | h1)
    · exact .inl h1.1
    · obtain ⟨j, h2, h3⟩ := mem_fols h1
      rw [Nat.sub_zero] at h2
      rw [List.getElem?_append_left (List.getElem?_eq_some_iff.1 h2).1, h2] at hx
      cases hx
      exact .inr h3
  · intro h1
    by_cases h2 : R.flatten.length ≤ k
    · rw [length_rev] at hlen
      exact .inl ⟨h2, hlen⟩
    · rcases h1 with h1 | h1
      · exact (h2 h1).elim
      · rw [List.getElem?_append_left (by rw [length_rev]; omega)] at hx
        have := fols_mem (a := a) (off := 0) hx h1
        rw [Nat.zero_add] at this
        exact .inr this

theorem Inv.pend_nodup {ph : Ph} {T : List Nat} (h : Inv a lab ty G B ph q (T :: R) s) (type : ElementType) (key : List Byte) :
    (Sel.initElement type key s).pending.Nodup := by
  rw [h.pend, List.nodup_append]
  refine ⟨List.nodup_range', fols_nodup _ _, fun x hx y hy => ?_⟩
  have h1 := (List.mem_range'_1.1 hx).1
  have h2 := (fols_ge a _ _ y hy).2
  omega

/-- The tokens of contents that report. -/
theorem Inv.shown {ph : Ph} {T : List Nat} {c : Nat × Nat} (h : Inv a lab ty G B ph q (T :: R) s) (hr : Rg a ty ph (T :: R) (c :: cs) s.tokens) {t : Nat} {st : State}
    (hst : a[t]? = some st) (hty : st.core.typeidx = ty) (hm : st.core.mask = contMask) {L : List Edge} (hL : lab[t]? = some L) (hG : G L)
    (key : List Byte) : (Sel.initElement .Content key s).pending.countP (hitAt s.tokens t .Content) =
      (if shown st.core (num st.core.follow c) then W B L q else 0) +
        if st.core.follow then belowR B (Path.shown st.core) L q cs else 0 := by
  have htr : trig a t = false := by unfold trig; rw [hst]; simp only [hm]; rfl
  have hidx : s.idx = R.reverse.flatten ++ T := by rw [h.idx]; simp
  rw [h.pend, List.countP_append]
  have h1 : (List.range' R.reverse.flatten.length T.length).countP (hitAt s.tokens t .Content) =
      if Path.shown st.core (num st.core.follow c) = true then (List.range' R.reverse.flatten.length T.length).countP (fun i => s.idx[i]? == some t) else 0 := by
    apply countP_and
    intro i hi
    rw [List.mem_range'_1] at hi
    unfold hitAt Sel.idx
    rw [List.getElem?_map]
    cases hti : s.tokens[i]? with
    | none => rfl
    | some tk =>
      simp only [Option.map_some]
      by_cases e : tk.stateidx = t
      · have := hr.lev.1 i (by rw [← length_rev]; exact hi.1) (by rw [← length_rev]; exact hi.2) tk st hti (by rw [e]; exact hst) hty hm
        rw [this]
        simp only [e, beq_self_eq_true, Bool.true_and]
        rfl
      · have e1 : (tk.stateidx == t) = false := beq_eq_false_iff_ne.2 e
        have e2 : (some tk.stateidx == some t) = false := by simpa using e
        rw [e1, e2, Bool.false_and, Bool.false_and]
  rw [h1, length_rev, h.level, h.cnt.top t L hL hG htr]
  congr 1
  by_cases hf : st.core.follow = true
  · rw [if_pos hf]
    exact Lev.count hst hty hm hL hG htr R cs q T T hr.lev.2 h.cnt hidx hf
  · rw [if_neg hf]
    apply nohit
    have hf' : isFollow a t = false := by unfold isFollow; rw [hst]; simpa using hf
    have h2 := h.own (type := .Content) hf' key
    rw [h.pend, List.countP_append, length_rev] at h2
    omega

/-- How many states for transitions are activated at an item. -/
def gain (B : List Edge → Nat) (type : ElementType) (key : List Byte) (ph : Ph) (q : List Open) (L : List Edge) : Nat :=
  match type, ph with
  | .OpenTag, _ => W B L (⟨key, []⟩ :: q)
  | .HeaderStart, .start => W B L (⟨key, []⟩ :: q)
  | .TagAttribValue, .named nm => plus B L nm key q
  | .HeaderAttribValue, .named nm => plus B L nm key q
  | _, _ => 0

/-- What is reported at an output. -/
def amount (B : List Edge → Nat) (type : ElementType) (key : List Byte) (ph : Ph) (q : List Open) (o : List Edge × Core) : Nat :=
  if o.2.mask = {} then
    match o.1.getLast? with
    | some e =>
      if e.mask = closeMask then
        (if closeMask.matches type then W B o.1.dropLast q + (if e.follow then below B o.1.dropLast q else 0) else 0)
      else gain B type key ph q o.1
    | none => 0
  else if o.2.mask = contMask then
    (if type = .Content then W B o.1 q + (if o.2.follow then below B o.1 q else 0) else 0)
  else match type, ph, o.1.getLast? with
    | .TagAttribValue, .named name, some e => if accepts e.key name then pool B e o.1.dropLast q else 0
    | .HeaderAttribValue, .named name, some e => if accepts e.key name then pool B e o.1.dropLast q else 0
    | _, _, _ => 0

/-- What is reported at an output with a range. -/
def amountR (B : List Edge → Nat) (type : ElementType) (key : List Byte) (ph : Ph) (q : List Open) (cs : List (Nat × Nat)) (o : List Edge × Core) : Nat :=
  if o.2.mask = {} then
    match o.1.getLast? with
    | some e =>
      if e.mask = closeMask then
        (if closeMask.matches type then W B o.1.dropLast q + (if e.follow then below B o.1.dropLast q else 0) else 0)
      else gain B type key ph q o.1
    | none => 0
  else if o.2.mask = contMask then
    match type, cs with
    | .Content, c :: cs => (if shown o.2 (num o.2.follow c) then W B o.1 q else 0) + (if o.2.follow then belowR B (shown o.2) o.1 q cs else 0)
    | _, _ => 0
  else match type, ph, o.1.getLast? with
    | .TagAttribValue, .named name, some e => if accepts e.key name ∧ Sel.fires (Sel.tick o.2) = true then pool B e o.1.dropLast q else 0
    | .HeaderAttribValue, .named name, some e => if accepts e.key name ∧ Sel.fires (Sel.tick o.2) = true then pool B e o.1.dropLast q else 0
    | _, _, _ => 0

theorem pool_own {e : Edge} (h : e.follow = false) (L : List Edge) (q : List Open) : pool B e L q = W B L q := by
  unfold pool
  rw [h]
  rfl

theorem pool_root (e : Edge) (L : List Edge) : pool B e L [] = B L := by
  unfold pool
  rw [W_root]
  cases e.follow <;> rfl

/-- Outputs without ranges. -/
theorem amountR_flat {type : ElementType} {key : List Byte} {ph : Ph} {cs : List (Nat × Nat)} {o : List Edge × Core} (hc : cs.length = q.length + 1)
    (h : o.2.mask ≠ {} → o.2.cntEnd = -1) : amountR B type key ph q cs o = amount B type key ph q o := by
  unfold amountR amount
  by_cases h1 : o.2.mask = {}
  · simp only [h1, if_true]
  · have he := h h1
    simp only [h1, if_false]
    by_cases h2 : o.2.mask = contMask
    · simp only [h2, if_true]
      cases cs with
      | nil => simp at hc
      | cons c cs =>
        by_cases ht : type = .Content
        · subst ht
          simp only [shown_flat he h2, if_true]
          rw [belowR_all (shown o.2) (shown_flat he h2) o.1 q cs (by simpa using hc)]
        · rw [if_neg ht]
          cases type <;> first | rfl | exact (ht rfl).elim
    · simp only [h2, if_false, fires_flat he, and_true]

/-- Values of attributes are asked for. -/
def Asks (a : Atm) (lab : List (List Edge)) (ty : Int) (G : List Edge → Prop) : Prop :=
  (∃ o ∈ outs a lab ty, o.2.mask = valMask) ∨ ∃ L e, G (L ++ [e]) ∧ e.mask = valMask

/-- The attributes of all elements are asked for. -/
def RootAsk (a : Atm) (lab : List (List Edge)) (ty : Int) : Prop :=
  ∃ o ∈ outs a lab ty, o.2.mask = valMask ∧ o.1.dropLast = []

/-- The items where the values of attributes can be asked for. -/
def PhOk (r : Prop) (B : List Edge → Nat) (ph : Ph) (q : List Open) (type : ElementType) : Prop :=
  (type = .TagAttribValue → ∃ name, ph = .named name) ∧
    (type = .HeaderAttribValue → (∃ name, ph = .named name) ∨ ((∀ name, ph ≠ .named name) ∧ q = [] ∧ ¬ r ∧ ∀ L, L ≠ [] → B L = 0))

theorem edge_steady (ok : Ok a lab) {s0 t : Nat} {st : State} (h : a[s0]? = some st) (ht : Ok.EdgeOf a s0 t) :
    st.core.cntEnd = -1 ∧ trig a s0 = false := by
  obtain ⟨st1, l1, k1, k2, k3⟩ := ht
  rw [h] at k1
  cases k1
  cases hn : st.next with
  | none => rw [hn] at k2; cases k2; cases k3
  | some j =>
    have := ok.edge s0 st j h hn
    refine ⟨this.2.1, ?_⟩
    unfold trig
    rw [h]
    simp [this.1]

theorem attr_matches (type : ElementType) (h : attrMask.matches type = true) :
    type = .TagAttribName ∨ type = .HeaderAttribName := by
  revert h
  cases type <;> decide

theorem cont_matches (type : ElementType) (h : contMask.matches type = true) : type = .Content := by
  revert h
  cases type <;> decide

theorem val_matches (type : ElementType) (h : valMask.matches type = true) :
    type = .TagAttribValue ∨ type = .HeaderAttribValue := by
  revert h
  cases type <;> decide

/-- A state whose mask does not match is not reported. -/
theorem no_live (tok : TokOk a s) {j : Nat} {st : State} (hst : a[j]? = some st) {type : ElementType}
    (hm : st.core.mask.matches type = false) (vs : List Nat) : vs.countP (live s.tokens j type) = 0 := by
  rw [List.countP_eq_zero]
  intro i _ hl
  unfold live at hl
  cases ht : s.tokens[i]? with
  | none => rw [ht] at hl; cases hl
  | some t =>
    rw [ht] at hl
    simp only [Bool.and_eq_true, beq_iff_eq] at hl
    have := tok.mask ht (by rw [hl.1]; exact hst) hl.2
    rw [hm] at this
    cases this

theorem gain_nil (type : ElementType) (key : List Byte) (ph : Ph) (q : List Open) : gain B type key ph q [] = 0 := by
  unfold gain
  split <;> rfl

/-- Conditions are fulfilled by the values of attributes. -/
theorem gain_val {type : ElementType} {key : List Byte} {ph : Ph} {L L' : List Edge} {e e' : Edge} (hA : AttrOf a G L L' e')
    (he : e.mask = valMask) (hm : valMask.matches type = false) : gain B type key ph q (L ++ [e]) = 0 := by
  unfold gain
  split
  · rw [hA.lab, W_val _ _ he]; rfl
  · rw [hA.lab, W_val _ _ he]; rfl
  · exact absurd hm (by decide)
  · exact absurd hm (by decide)
  · rfl

theorem gain_named {type : ElementType} (hm : valMask.matches type = true) (key nm : List Byte) (L : List Edge) :
    gain B type key (.named nm) q L = plus B L nm key q := by
  rcases val_matches type hm with rfl | rfl <;> rfl

theorem gain_off {type : ElementType} (hm : valMask.matches type = true) {ph : Ph} (hp : ∀ nm, ph ≠ .named nm) (key : List Byte)
    (L : List Edge) : gain B type key ph q L = 0 := by
  rcases val_matches type hm with rfl | rfl
  · cases ph <;> first | rfl | exact (hp _ rfl).elim
  · cases ph <;> first | rfl | exact (hp _ rfl).elim

/-- The values of attributes of the header are looked for like those of elements. -/
theorem live_val (tok : TokOk a s) {j : Nat} {st : State} (hst : a[j]? = some st) (hk : st.core.mask = valMask)
    {type : ElementType} (hm : valMask.matches type = true) (vs : List Nat) :
    vs.countP (live s.tokens j type) = vs.countP (live s.tokens j .TagAttribValue) := by
  apply List.countP_congr
  intro i _
  unfold live
  cases ht : s.tokens[i]? with
  | none => simp
  | some t =>
    simp only [Bool.and_eq_true, beq_iff_eq]
    apply and_congr_right
    intro hj
    obtain ⟨st', e1, -, e3, -⟩ := tok t (List.mem_of_getElem? ht)
    rw [hj, hst] at e1
    cases e1
    rcases e3 with e3 | e3
    · rw [e3, hk, hm]
      simp only [true_iff]
      decide
    · rw [e3]
      simp [Mask.matches]

/-- An item is processed: the states activated are counted. -/
theorem Inv.fed {ph : Ph} {T : List Nat} (g : Goal a lab ty G) (h : Inv a lab ty G B ph q (T :: R) s) (hr : Rg a ty ph (T :: R) cs s.tokens) (type : ElementType) (key : List Byte)
    (hh : type = .HeaderStart → ∀ L e, G (L ++ [e]) → e.mask = tagMask → accepts e.key key → q = [] ∧ (ph = .start ∨ B L = 0))
    (hp : Asks a lab ty G → PhOk (RootAsk a lab ty) B ph q type) :
    ∃ N rs s2 X, Mid a (Sel.initElement type key s) s2 X ∧
      (∀ n, N ≤ n → (Sel.fetch n >>= Sel.walk n false n) (Sel.initElement type key s) = (.ok rs, s2)) ∧
      (∀ x ∈ s2.triggers, x ≠ 0 ∧ x ≠ ty) ∧
      (∀ t L, lab[t]? = some L → G L → X.count t = gain B type key ph q L) ∧
      (∀ (t : Nat) M L e, lab[t]? = some M → AttrOf a G M L e → (pool B e L q = 0 → X.count t = 0) ∧
        (type ≠ .TagAttribName → type ≠ .HeaderAttribName → X.count t = 0) ∧
        (attrMask.matches type = true → ph ≠ .off → X.count t = if accepts e.key key then pool B e L q else 0)) ∧
      (attrMask.matches type = true → ∀ (j : Nat) st M L e, a[j]? = some st → lab[j]? = some M → AttrOf a G M L e → st.core.mask = valMask →
        (List.range' R.flatten.length T.length).countP (live s2.tokens j .TagAttribValue) = 0) ∧
      (∀ k, k < (T :: R).flatten.length → ∀ tk', s2.tokens[k]? = some tk' → ∃ tk, s.tokens[k]? = some tk ∧ tk'.stateidx = tk.stateidx ∧
        ∀ st, a[tk.stateidx]? = some st → st.core.typeidx = ty → st.core.mask = contMask →
          tk'.core = if type = .Content ∧ (R.flatten.length ≤ k ∨ st.core.follow = true) then adv tk.core else tk.core) ∧
      rs.count ty = ((outs a lab ty).map (amountR B type key ph q cs)).sum := by
  obtain ⟨c, cs, rfl⟩ : ∃ c cs', cs = c :: cs' := by
    cases cs with
    | nil => exact hr.lev.elim
    | cons c cs => exact ⟨c, cs, rfl⟩
  obtain ⟨N, rs, s2, X, h1, h2, h3⟩ := run_item (h.ready g.ok type key)
  rw [init_type, init_trig, init_tokens] at h3
  have hattr : ∀ (t : Nat) M L e, lab[t]? = some M → AttrOf a G M L e → ∃ s0 st, a[s0]? = some st ∧ lab[s0]? = some L ∧
      st.core.mask = attrMask ∧ st.key = e.key ∧ st.core.follow = e.follow ∧ Ok.EdgeOf a s0 t ∧ T.count s0 = W B L q ∧ st.core.cntEnd = -1 ∧
      R.flatten.count s0 = below B L q := by
    intro t M L e hL hA
    rw [hA.lab] at hL
    obtain ⟨s0, st, e1, e2, e3, e4⟩ := g.ok.parent' hL
    obtain ⟨k1, k2⟩ := edge_steady g.ok e1 e4
    have e7 : st.core.mask = attrMask := by rw [← hA.mask, ← e3]; rfl
    have e8 : st.key = e.key := by rw [← e3]; rfl
    have e9 : st.core.follow = e.follow := by rw [← e3]; rfl
    exact ⟨s0, st, e1, e2, e7, e8, e9, e4, h.cnt.top s0 L e2 hA.good k2, k1, h.cnt.below G q T R s0 L e2 hA.good k2⟩
  have hcnt0 : ∀ (t : Nat) M L e, lab[t]? = some M → AttrOf a G M L e → pool B e L q = 0 → T.count t = 0 := by
    cases q <;> exact h.cnt.2.1
  have hlen0 : s.tokens.length = (T :: R).flatten.length := by
    have := congrArg List.length h.idx
    rw [length_rev] at this
    simpa [Sel.idx] using this
  have old : ∀ k, k < s.tokens.length → ∀ tk', s2.tokens[k]? = some tk' → ∃ tk, s.tokens[k]? = some tk ∧ tk'.stateidx = tk.stateidx := by
    intro k hk tk' hk'
    have m2 : s2.idx[k]? = s.idx[k]? := by
      rw [h1.idx, init_idx, List.getElem?_append_left (by simpa [Sel.idx] using hk)]
    obtain ⟨tk, htk⟩ : ∃ tk, s.tokens[k]? = some tk := ⟨_, List.getElem?_eq_getElem hk⟩
    unfold Sel.idx at m2
    rw [List.getElem?_map, List.getElem?_map, hk', htk] at m2
    simp only [Option.map_some, Option.some.injEq] at m2
    exact ⟨tk, htk, m2⟩
  have leafNext : ∀ (j : Nat) st, a[j]? = some st → st.core.typeidx = ty → st.next = none := by
    intro j st k1 k2
    cases hn : st.next with
    | none => rfl
    | some i => exact (g.ty0 (k2.symm.trans (g.ok.edge j st i k1 hn).1)).elim
  rcases h3 with ⟨h3, h5, ⟨rs0, s3, hv, htk, h6⟩, hdead, rs1, h4⟩ | ⟨h3, rfl, rfl, h5, htk⟩
  · have hX : ∀ t L, lab[t]? = some L → G L → X.count t = gain B type key ph q L := by
      intro t L hL hG
      rcases nil_or_snoc L with rfl | ⟨L, e, rfl⟩
      · rw [gain_nil, List.count_eq_zero]
        intro hm
        obtain ⟨u, hu⟩ := h4.edge t hm
        obtain ⟨_, _, -, -, e3⟩ := g.ok.edge_lab hu
        rw [hL] at e3
        simp at e3
      · obtain ⟨s0, st, e1, e2, e3, e4⟩ := g.ok.parent' hL
        have e8 : st.key = e.key := by rw [← e3]; rfl
        have e9 : isFollow a s0 = e.follow := by unfold isFollow; rw [e1, ← e3]; rfl
        obtain ⟨hce, htr⟩ := edge_steady g.ok e1 e4
        rcases g.pre L e hG with ⟨e5, e6⟩ | ⟨e6, e10, L', e', hA, hAn, hAc⟩
        · have e7 : st.core.mask = tagMask := by rw [← e6, ← e3]; rfl
          have hnv : e.mask ≠ valMask := by rw [e6]; decide
          have hst : st.steady := ⟨hce, by rw [e7]; rfl⟩
          have hrej : st.core.mask.rejects type = false := by rw [e7]; cases type <;> decide
          rw [h4.count g.ok e1 e4 hrej, e8]
          by_cases ht : type = .OpenTag ∨ type = .HeaderStart ∧ ph = .start
          · have hz : gain B type key ph q (L ++ [e]) = W B (L ++ [e]) (⟨key, []⟩ :: q) := by
              rcases ht with rfl | ⟨rfl, rfl⟩ <;> rfl
            have hm : tagMask.matches type = true := by rcases ht with rfl | ⟨rfl, rfl⟩ <;> decide
            rw [hz, W_tag L hnv]
            by_cases hc : accepts e.key key
            · rw [if_pos hc, if_pos hc, h.steady e1 hst (by rw [e7]; exact hm) key, e9, h.cnt.top s0 L e2 e5 htr,
                h.cnt.below G q T R s0 L e2 e5 htr]
            · rw [if_neg hc, if_neg hc]
          · have hz : gain B type key ph q (L ++ [e]) = 0 := by
              unfold gain
              split
              · exact (ht (.inl rfl)).elim
              · exact (ht (.inr ⟨rfl, rfl⟩)).elim
              · exact plus_tag L hnv _ _ _
              · exact plus_tag L hnv _ _ _
              · rfl
            rw [hz]
            by_cases hc : accepts e.key key
            · rw [if_pos hc]
              by_cases ht2 : type = .HeaderStart
              · obtain ⟨hq, hL⟩ := hh ht2 L e hG e6 hc
                rw [h.steady e1 hst (by rw [e7, ht2]; decide) key, h.cnt.top s0 L e2 e5 htr, h.cnt.below G q T R s0 L e2 e5 htr, hq]
                rcases hL with k | k
                · exact (ht (.inr ⟨ht2, k⟩)).elim
                · rw [W_root, k, Nat.zero_add]
                  exact ite_self _
              · apply no_live h.tok e1
                rw [e7, ← Bool.not_eq_true]
                intro hm
                rcases tag_matches type hm with k | k
                · exact ht (.inl k)
                · exact ht2 k
            · rw [if_neg hc]
        · have e7 : st.core.mask = valMask := by rw [← e6, ← e3]; rfl
          have hpo := hp (.inr ⟨L, e, hG, e6⟩)
          cases hm : valMask.matches type with
          | false =>
            rw [gain_val hA e6 hm, List.count_eq_zero]
            intro hX
            obtain ⟨i, _, tk, st', k1, k2, k3, k4⟩ := h4.mem t hX
            have := g.ok.edgeOf_inj k3 e4
            rw [this, e1] at k2
            cases k2
            rw [e7, hm] at k4
            cases k4
          | true =>
            have hrej : st.core.mask.rejects type = false := by
              rw [e7]
              rcases val_matches type hm with rfl | rfl <;> decide
            rw [h4.count g.ok e1 e4 hrej, e8, h.own (e9.trans e10) key]
            have hph : (∃ name, ph = .named name) ∨ ((∀ name, ph ≠ .named name) ∧ q = [] ∧ ¬ RootAsk a lab ty ∧ ∀ L, L ≠ [] → B L = 0) := by
              rcases val_matches type hm with rfl | rfl
              · exact .inl (hpo.1 rfl)
              · exact hpo.2 rfl
            rcases hph with ⟨name, hname⟩ | ⟨hno, hq0, hra, hz⟩
            · subst hname
              rw [live_val h.tok e1 e7 hm]
              have := h.att.named name rfl s0 st L L' e' e1 e2 hA e7
              have hlen : s.tokens.length - R.flatten.length = T.length := by
                have := congrArg List.length h.idx
                rw [length_rev] at this
                simp only [Sel.idx, List.length_map, List.flatten_cons, List.length_append] at this
                omega
              rw [show (T :: R).tail = R from rfl, hlen] at this
              rw [this, gain_named hm, hA.lab, plus_val hAn _ e6, pool_own hAc]
              by_cases c1 : accepts e.key key <;> by_cases c2 : accepts e'.key name <;> simp [c1, c2]
            · rw [h.none_live (hcnt0 s0 L L' e' e2 hA (by rw [pool_own hAc, hq0, W_root]; exact hz L' hAn)), ite_self, gain_off hm hno]
    have hXa : ∀ (t : Nat) M L e, lab[t]? = some M → AttrOf a G M L e → (pool B e L q = 0 → X.count t = 0) ∧
        (type ≠ .TagAttribName → type ≠ .HeaderAttribName → X.count t = 0) ∧
        (attrMask.matches type = true → ph ≠ .off → X.count t = if accepts e.key key then pool B e L q else 0) := by
      intro t M L e hL hA
      obtain ⟨s0, st, e1, e2, e7, e8, e9, e4, e10, e11, e12⟩ := hattr t M L e hL hA
      have none : attrMask.matches type = false → X.count t = 0 := by
        intro hm
        rw [List.count_eq_zero]
        intro hX
        obtain ⟨i, _, tk, st', k1, k2, k3, k4⟩ := h4.mem t hX
        have := g.ok.edgeOf_inj k3 e4
        rw [this, e1] at k2
        cases k2
        rw [e7, hm] at k4
        cases k4
      have main : attrMask.matches type = true → X.count t = if accepts e.key key then
          (Sel.initElement type key s).pending.countP (live s.tokens s0 type) else 0 := by
        intro hm
        have hrej : st.core.mask.rejects type = false := by
          rw [e7]
          rcases attr_matches type hm with rfl | rfl <;> decide
        rw [h4.count g.ok e1 e4 hrej, e8]
      have e13 : isFollow a s0 = e.follow := by unfold isFollow; rw [e1]; exact e9
      have deep : attrMask.matches type = true → e.follow = true →
          (Sel.initElement type key s).pending.countP (live s.tokens s0 type) = pool B e L q := by
        intro hm hfo
        rw [h.all (st := st) (fun i tk k1 k2 => h.att.deep (hA.free hfo) i tk st k1 (by rw [k2]; exact e1) e7 (e9.trans hfo) e11)
          (by rw [e7]; exact hm) key, e10, e13, hfo, e12]
        unfold pool
        rw [hfo]
      refine ⟨fun hW => ?_, fun k1 k2 => ?_, fun ht hph => ?_⟩
      · cases hm : attrMask.matches type with
        | false => exact none hm
        | true =>
          rw [main hm]
          cases hfo : e.follow with
          | true => rw [deep hm hfo, hW, ite_self]
          | false =>
            rw [pool_own hfo] at hW
            rw [h.own (e13.trans hfo) key, h.none_live (by rw [e10, hW]) type, ite_self]
      · apply none
        rw [← Bool.not_eq_true]
        intro hm
        rcases attr_matches type hm with k | k
        · exact k1 k
        · exact k2 k
      · rw [main ht]
        cases hfo : e.follow with
        | true => rw [deep ht hfo]
        | false =>
          rw [pool_own hfo, h.own (e13.trans hfo) key, ← e10, ← h.level s0]
          congr 1
          apply List.countP_congr
          intro i hi
          constructor
          · exact live_idx
          · intro hx
            unfold Sel.idx at hx
            rw [List.getElem?_map] at hx
            cases hti : s.tokens[i]? with
            | none => rw [hti] at hx; simp at hx
            | some tk =>
              rw [hti] at hx
              have hx : tk.stateidx = s0 := by simpa using hx
              have := h.att.alive hph i tk st (by rw [List.mem_range'_1] at hi; exact hi.1) hti (by rw [hx]; exact e1) e7 e11
              unfold live
              rw [hti]
              simp only [hx, beq_self_eq_true, Bool.true_and, this, e7]
              exact ht
    obtain ⟨lv1, lv2, lv3⟩ := (h.ready g.ok type key).leaves g.ty0 _ (pending_lt (h.ready g.ok type key).from') (h.pend_nodup type key) hv
    rw [init_tokens, init_type] at lv3
    have hdd : attrMask.matches type = true → ∀ (j : Nat) st M L e, a[j]? = some st → lab[j]? = some M → AttrOf a G M L e → st.core.mask = valMask →
        (List.range' R.flatten.length T.length).countP (live s2.tokens j .TagAttribValue) = 0 := by
      intro hn j st M L e k1 k2 k3 k4
      rw [List.countP_eq_zero]
      intro i hi hl
      have hmem : i ∈ (Sel.initElement type key s).pending := by
        rw [h.pend, length_rev]
        exact List.mem_append_left _ hi
      have hrej : valMask.rejects type = true := by rcases attr_matches type hn with rfl | rfl <;> decide
      unfold live at hl
      cases hti : s2.tokens[i]? with
      | none => rw [hti] at hl; cases hl
      | some tk =>
        rw [hti] at hl
        simp only [Bool.and_eq_true, beq_iff_eq] at hl
        have : tk.core.mask = {} := by
          cases hnx : st.next with
          | some j' => exact hdead i hmem tk st hti (by rw [hl.1]; exact k1) (g.ok.edge j st j' k1 hnx).2.1 (by rw [k4]; exact hrej)
          | none =>
            obtain ⟨t0, m1, m2⟩ := old i (by
              rw [hlen0, List.flatten_cons, List.length_append]
              have := (List.mem_range'_1.1 hi).2
              omega) tk hti
            have m3 := lv2 i hmem t0 st (by rw [init_tokens]; exact m1) (by rw [← m2, hl.1]; exact k1) hnx
            rw [← htk, hti, init_type] at m3
            cases m3
            obtain ⟨st', f1, -, f3, -⟩ := h.tok t0 (List.mem_of_getElem? m1)
            rw [← m2, hl.1, k1] at f1
            cases f1
            show (leafCore type t0.core).mask = {}
            have hm : t0.core.mask.matches type = false := by
              rcases f3 with f3 | f3 <;> rw [f3]
              · rw [k4]; rcases attr_matches type hn with rfl | rfl <;> decide
              · simp [Mask.matches]
            unfold leafCore
            simp only [hm, Bool.false_eq_true, if_false]
            split
            · rfl
            · rename_i hx
              rcases f3 with f3 | f3
              · rw [f3, k4, hrej] at hx
                exact (hx rfl).elim
              · exact f3
        rw [this] at hl
        simp [Mask.matches] at hl
    have hev : ∀ k, k < (T :: R).flatten.length → ∀ tk', s2.tokens[k]? = some tk' → ∃ tk, s.tokens[k]? = some tk ∧ tk'.stateidx = tk.stateidx ∧
        ∀ st, a[tk.stateidx]? = some st → st.core.typeidx = ty → st.core.mask = contMask →
          tk'.core = if type = .Content ∧ (R.flatten.length ≤ k ∨ st.core.follow = true) then adv tk.core else tk.core := by
      intro k hk tk' hk'
      rw [← hlen0] at hk
      obtain ⟨tk, e1, e2⟩ := old k hk tk' hk'
      refine ⟨tk, e1, e2, fun st m1 m2 m3 => ?_⟩
      obtain ⟨st', f1, f2, f3, -⟩ := h.tok tk (List.mem_of_getElem? e1)
      rw [m1] at f1
      cases f1
      have hu : Used tk.core := by rw [m3] at f3; exact f3
      have hfo : isFollow a tk.stateidx = st.core.follow := by unfold isFollow; rw [m1]
      have hmp := h.mem_pend type key e1
      rw [hfo] at hmp
      by_cases hp : k ∈ (Sel.initElement type key s).pending
      · have := lv2 k hp tk st (by rw [init_tokens]; exact e1) m1 (leafNext _ st m1 m2)
        rw [← htk, hk', init_type] at this
        cases this
        show leafCore type tk.core = _
        rw [hu.leaf (by rw [f2, m2]; exact g.ty0)]
        simp only [hmp.1 hp, and_true]
      · have := lv1 k hp (by rw [init_tokens]; exact hk)
        rw [← htk, hk', init_tokens, e1] at this
        cases this
        rw [if_neg]
        exact fun hx => hp (hmp.2 hx.2)
    refine ⟨N, rs, s2, X, h1, h2, (by rw [h5]; intro x hx; cases hx), hX, hXa, hdd, hev, ?_⟩
    rw [h6, List.count_append, List.count_append, List.count_reverse]
    have k1 : (rs0.filter (· ≠ 0)).count ty = rs0.count ty := List.count_filter (by simpa using g.ty0)
    have k2 : s.triggers.count ty = 0 := by
      rw [List.count_eq_zero]
      intro hm
      exact (h.trg ty hm).2 rfl
    rw [k1, k2, Nat.add_zero]
    rw [lv3, Nat.add_comm]
    refine results_sum g.ok g.ty0 h4.lt ?_ ?_
    · intro tk htk
      obtain ⟨st, hst, -⟩ := h.tok tk htk
      exact (List.getElem?_eq_some_iff.1 hst).1
    · intro t st M m1 m2 m3
      obtain ⟨L, m4, m5⟩ := g.out t st m1 m2
      rw [m3] at m4
      cases m4
      rcases m5 with ⟨m5, ⟨m6, m6'⟩ | ⟨L', e, m6, m7, m8, m9⟩⟩ | ⟨m5, m7⟩ | ⟨m5, m7, L, e, m8⟩
      · have z := nohit (no_live h.tok m1 (type := type) (by rw [m5]; simp [Mask.matches]) (Sel.initElement type key s).pending)
        rw [z, m5, hX t M m3 m6]
        unfold amountR
        simp only [m5]
        rcases nil_or_snoc M with rfl | ⟨L', e, rfl⟩
        · exact (m6' rfl).elim
        · have hnc : ¬ e.mask = closeMask := by
            rcases g.pre L' e m6 with ⟨-, k⟩ | ⟨k, -⟩ <;> rw [k] <;> decide
          simp [Mask.empty, hnc]
      · have z := nohit (no_live h.tok m1 (type := type) (by rw [m5]; simp [Mask.matches]) (Sel.initElement type key s).pending)
        rw [z, m5]
        unfold amountR
        simp only [m5, m6, List.getLast?_append, List.getLast?_singleton, Option.some_or, List.dropLast_concat, m8, if_true]
        rw [m6] at m3
        obtain ⟨s0, st0, e1, e2, e3, e4⟩ := g.ok.parent' m3
        obtain ⟨hce, htr⟩ := edge_steady g.ok e1 e4
        have e7 : st0.core.mask = closeMask := by rw [← m8, ← e3]; rfl
        have e8 : st0.key = none := by rw [← m9, ← e3]; rfl
        have e9 : isFollow a s0 = e.follow := by unfold isFollow; rw [e1, ← e3]; rfl
        have hrej : st0.core.mask.rejects type = false := by rw [e7]; cases type <;> decide
        rw [h4.count g.ok e1 e4 hrej, e8, if_pos (show accepts none key from trivial)]
        cases hm : closeMask.matches type with
        | true =>
          rw [h.steady e1 ⟨hce, by rw [e7]; rfl⟩ (by rw [e7]; exact hm) key, e9, h.cnt.top s0 L' e2 m7 htr,
            h.cnt.below G q T R s0 L' e2 m7 htr]
          simp [Mask.empty]
        | false =>
          rw [no_live h.tok e1 (by rw [e7]; exact hm)]
          simp
      · have hne : st.core.mask.empty = false := by rw [m5]; decide
        have hne' : ¬ contMask = {} := by decide
        rw [hne]
        unfold amountR
        simp only [m5, hne', if_false, if_true, Bool.false_eq_true, Nat.zero_add]
        by_cases ht : type = .Content
        · subst ht
          exact h.shown hr m1 m2 m5 m3 m7 key
        · rw [nohit (no_live h.tok m1 (by
            rw [m5, ← Bool.not_eq_true]
            exact fun hm => ht (cont_matches type hm)) _)]
          cases type <;> first | rfl | exact (ht rfl).elim
      · have hne : st.core.mask.empty = false := by rw [m5]; decide
        have hne' : ¬ valMask = {} := by decide
        have hne2 : ¬ valMask = contMask := by decide
        have hfo : isFollow a t = false := by unfold isFollow; rw [m1]; exact m7
        have hmo : (M, st.core) ∈ outs a lab ty := by
          unfold outs
          rw [List.mem_filterMap]
          refine ⟨(st, M), ?_, by simp [m2]⟩
          apply List.mem_of_getElem? (i := t)
          rw [List.getElem?_zip_eq_some]
          exact ⟨m1, m3⟩
        have hpo := hp (.inl ⟨_, hmo, m5⟩)
        rw [hne, h.own_hit hfo key]
        unfold amountR
        simp only [m5, hne', hne2, if_false, Bool.false_eq_true, Nat.zero_add]
        cases hm : valMask.matches type with
        | true =>
          have hph : (∃ name, ph = .named name) ∨ ((∀ name, ph ≠ .named name) ∧ q = [] ∧ ¬ RootAsk a lab ty ∧ ∀ L, L ≠ [] → B L = 0) := by
            rcases val_matches type hm with rfl | rfl
            · exact .inl (hpo.1 rfl)
            · exact hpo.2 rfl
          rcases hph with ⟨name, hname⟩ | ⟨hno, hq0, hra, hz⟩
          · subst hname
            have hlen : s.tokens.length - R.flatten.length = T.length := by
              have := congrArg List.length h.idx
              rw [length_rev] at this
              simp only [Sel.idx, List.length_map, List.flatten_cons, List.length_append] at this
              omega
            have hc : (List.range' R.flatten.length T.length).countP (hitAt s.tokens t type) =
                if Sel.fires (Sel.tick st.core) = true then (List.range' R.flatten.length T.length).countP (live s.tokens t type) else 0 := by
              apply countP_and
              intro i hi
              unfold hitAt live
              cases hti : s.tokens[i]? with
              | none => rfl
              | some tk =>
                simp only []
                by_cases hj : tk.stateidx = t
                · cases hmm : tk.core.mask.matches type with
                  | false => simp [leafHit, hmm]
                  | true =>
                    have hl : (List.range' R.flatten.length T.length).countP (live s.tokens t type) =
                      (List.range' R.flatten.length T.length).countP (live s.tokens t .TagAttribValue) := live_val h.tok m1 m5 hm _
                    obtain ⟨st', f1, f2, f3, -⟩ := h.tok tk (List.mem_of_getElem? hti)
                    rw [hj, m1] at f1
                    cases f1
                    have hv : tk.core.mask.matches .TagAttribValue = true := by
                      rcases f3 with f3 | f3
                      · rw [f3, m5]; decide
                      · rw [f3] at hmm; simp [Mask.matches] at hmm
                    have := hr.val name rfl i tk st (List.mem_range'_1.1 hi).1 hti (by rw [hj]; exact m1) m2 m5 hv
                    rw [this]
                    rw [this] at hmm
                    simp [leafHit, hmm, hj]
                · have e1 : (tk.stateidx == t) = false := beq_eq_false_iff_ne.2 hj
                  rw [e1, Bool.false_and, Bool.false_and, Bool.false_and]
            rw [hc, live_val h.tok m1 m5 hm]
            have := h.att.named name rfl t st M L e m1 m3 m8 m5
            rw [show (T :: R).tail = R from rfl, hlen] at this
            rw [this, m8.lab]
            rcases val_matches type hm with rfl | rfl <;> by_cases c1 : accepts e.key name <;>
              by_cases c2 : Sel.fires (Sel.tick st.core) = true <;> simp [c1, c2]
          · have hne3 : L ≠ [] := by
              rintro rfl
              exact hra ⟨_, hmo, m5, by rw [m8.lab]; rfl⟩
            rw [nohit (h.none_live (hcnt0 t M L e m3 m8 (by rw [hq0, pool_root]; exact hz L hne3)) _)]
            rcases val_matches type hm with rfl | rfl
            · cases ph <;> first | rfl | exact (hno _ rfl).elim
            · cases ph <;> first | rfl | exact (hno _ rfl).elim
        | false =>
          rw [nohit (no_live h.tok m1 (by rw [m5]; exact hm) _)]
          cases type <;> first | rfl | exact absurd hm (by decide)
  · have ht : type ≠ .OpenTag := by
      rintro rfl
      rw [init_mask] at h3
      cases h3
    have hsc : s.scope.mask.matches type = false := by
      rw [← h3]
      unfold Sel.initElement
      simp only [ht, if_false]
    have noT : ∀ j st, a[j]? = some st → st.core.mask.matches type = true → T.count j = 0 := by
      intro j st k1 k2
      rw [List.count_eq_zero]
      intro hm
      rw [(h.cover j st type k1 k2).1 hm] at hsc
      cases hsc
    have noA : attrMask.matches type = true → ∀ (t : Nat) M L e, lab[t]? = some M → AttrOf a G M L e → pool B e L q = 0 := by
      intro hn t M L e k1 k2
      obtain ⟨s0, st, e1, e2, e7, e8, e9, e4, e10, e11, e12⟩ := hattr t M L e k1 k2
      have hm : st.core.mask.matches type = true := by rw [e7]; exact hn
      unfold pool
      rw [← e10, noT s0 st e1 hm, Nat.zero_add]
      split
      · rename_i hfo
        rw [← e12, List.count_eq_zero]
        intro hmm
        rw [((h.cover s0 st type e1 hm).2 (.inr hmm) (e9.trans hfo)).1] at hsc
        cases hsc
      · rfl
    have hgain : ∀ (t : Nat) L, lab[t]? = some L → G L → 0 = gain B type key ph q L := by
      intro t L k1 k2
      symm
      rcases nil_or_snoc L with rfl | ⟨L, e, rfl⟩
      · exact gain_nil ..
      obtain ⟨s0, st, e1, e2, e3, e4⟩ := g.ok.parent' k1
      obtain ⟨hce, htr⟩ := edge_steady g.ok e1 e4
      have head : gain B type key ph q (L ++ [e]) = W B (L ++ [e]) (⟨key, []⟩ :: q) → type = .HeaderStart →
          gain B type key ph q (L ++ [e]) = 0 := by
        intro hz hs
        rw [hz]
        rcases g.pre L e k2 with ⟨k3, k⟩ | ⟨k, -, L', e', hA, hAn, hAc⟩
        · have e7 : st.core.mask = tagMask := by rw [← k, ← e3]; rfl
          have hm : st.core.mask.matches type = true := by rw [e7, hs]; decide
          have e9 : st.core.follow = e.follow := by rw [← e3]; rfl
          have z := noT s0 st e1 hm
          rw [h.cnt.top s0 L e2 k3 htr] at z
          rw [W_tag L (by rw [k]; decide), z, Nat.zero_add]
          split
          · split
            · rename_i hfo
              rw [← h.cnt.below G q T R s0 L e2 k3 htr, List.count_eq_zero]
              intro hmm
              rw [((h.cover s0 st type e1 hm).2 (.inr hmm) (e9.trans hfo)).1] at hsc
              cases hsc
            · rfl
          · rfl
        · rw [hA.lab, W_val _ _ k]; rfl
      have val : valMask.matches type = true → ∀ nm, ph = .named nm → plus B (L ++ [e]) nm key q = 0 := by
        rintro hm nm rfl
        rcases g.pre L e k2 with ⟨-, k⟩ | ⟨k, -, L', e', hA, hAn, hAc⟩
        · exact plus_tag _ (by rw [k]; decide) _ _ _
        · have e7 : st.core.mask = valMask := by rw [← k, ← e3]; rfl
          have := h.att.named nm rfl s0 st L L' e' e1 e2 hA e7
          have hlen : s.tokens.length - R.flatten.length = T.length := by
            have := congrArg List.length h.idx
            rw [length_rev] at this
            simp only [Sel.idx, List.length_map, List.flatten_cons, List.length_append] at this
            omega
          rw [show (T :: R).tail = R from rfl, hlen, h.none_live (noT s0 st e1 (by rw [e7]; exact hm))] at this
          rw [pool_own hAc] at this
          rw [hA.lab, plus_val hAn _ k]
          by_cases c2 : accepts e'.key nm
          · rw [if_pos c2] at this
            rw [← this, ite_self]
          · rw [if_neg (fun h => c2 h.1)]
      by_cases h9 : type = .HeaderStart ∧ ph = .start
      · obtain ⟨rfl, rfl⟩ := h9
        exact head rfl rfl
      · cases hm : valMask.matches type with
        | true =>
          by_cases hn : ∃ nm, ph = .named nm
          · obtain ⟨nm, rfl⟩ := hn
            rw [gain_named hm]
            exact val hm nm rfl
          · exact gain_off hm (fun nm hx => hn ⟨nm, hx⟩) _ _
        | false =>
          unfold gain
          split
          · exact (ht rfl).elim
          · exact (h9 ⟨rfl, rfl⟩).elim
          · exact absurd hm (by decide)
          · exact absurd hm (by decide)
          · rfl
    refine ⟨N, [], s2, [], h1, h2, by rw [h5]; exact h.trg, fun t L k1 k2 => hgain t L k1 k2, ?_, ?_, ?_, ?_⟩
    · intro t M L e k1 k2
      refine ⟨fun _ => rfl, fun _ _ => rfl, fun k3 _ => ?_⟩
      rw [noA k3 t M L e k1 k2, ite_self]
      rfl
    · intro hn j st M L e k1 k2 k3 k4
      have hT := hcnt0 j M L e k2 k3 (noA hn j M L e k2 k3)
      have := h.level j
      rw [hT, List.countP_eq_zero] at this
      rw [List.countP_eq_zero]
      intro i hi hl
      have h7 := live_idx hl
      rw [h1.idx] at h7
      simp only [List.filter_nil, List.append_nil, init_idx] at h7
      exact this i hi h7
    · intro k hk tk' hk'
      rw [htk] at hk'
      refine ⟨tk', hk', rfl, fun st m1 m2 m3 => ?_⟩
      rw [if_neg]
      rintro ⟨rfl, hx⟩
      have hj : tk'.stateidx ∈ T ∨ tk'.stateidx ∈ R.flatten := by
        have : s.idx[k]? = some tk'.stateidx := by unfold Sel.idx; rw [List.getElem?_map, hk']; rfl
        have := List.mem_of_getElem? this
        rw [h.idx] at this
        simpa [or_comm] using this
      have hcov := h.cover tk'.stateidx st .Content m1 (by rw [m3]; decide)
      have : s.scope.mask.matches .Content = true := by
        rcases hx with hx | hx
        · have : s.idx[k]? = some tk'.stateidx := by unfold Sel.idx; rw [List.getElem?_map, hk']; rfl
          rw [h.idx, List.reverse_cons, List.flatten_append, List.getElem?_append_right (by rw [length_rev]; exact hx)] at this
          have := List.mem_of_getElem? this
          exact hcov.1 (by simpa using this)
        · exact (hcov.2 hj hx).1
      rw [this] at hsc
      cases hsc
    · have e : ((outs a lab ty).map (amountR B type key ph q (c :: cs))).sum = ((outs a lab ty).map fun _ => 0).sum := by
        congr 1
        apply List.map_congr_left
        intro o ho
        unfold outs at ho
        rw [List.mem_filterMap] at ho
        obtain ⟨x, hx, ho⟩ := ho
        obtain ⟨t, hx⟩ := List.mem_iff_getElem?.1 hx
        rw [List.getElem?_zip_eq_some] at hx
        obtain ⟨m1, m3⟩ := hx
        by_cases m2 : x.1.core.typeidx = ty
        · rw [if_pos m2] at ho
          cases ho
          obtain ⟨L, m4, m5⟩ := g.out t x.1 m1 m2
          rw [m3] at m4
          cases m4
          unfold amountR
          rcases m5 with ⟨m5, ⟨m6, m6'⟩ | ⟨L', e, m6, m7, m8, m9⟩⟩ | ⟨m5, m7⟩ | ⟨m5, m7, L, e, m8⟩
          · simp only [m5, if_true]
            rcases nil_or_snoc x.2 with k | ⟨L', e, k⟩
            · exact (m6' k).elim
            · have hnc : ¬ e.mask = closeMask := by
                rw [k] at m6
                rcases g.pre L' e m6 with ⟨-, k⟩ | ⟨k, -⟩ <;> rw [k] <;> decide
              have := hgain t x.2 m3 m6
              rw [k] at this ⊢
              simp [hnc, ← this]
          · simp only [m5, m6, List.getLast?_append, List.getLast?_singleton, Option.some_or, List.dropLast_concat, m8, if_true]
            rw [m6] at m3
            obtain ⟨s0, st0, e1, e2, e3, e4⟩ := g.ok.parent' m3
            obtain ⟨hce, htr⟩ := edge_steady g.ok e1 e4
            have e7 : st0.core.mask = closeMask := by rw [← m8, ← e3]; rfl
            have e9 : st0.core.follow = e.follow := by rw [← e3]; rfl
            cases hm : closeMask.matches type with
            | false => simp
            | true =>
              have z := noT s0 st0 e1 (by rw [e7]; exact hm)
              rw [h.cnt.top s0 L' e2 m7 htr] at z
              rw [if_pos rfl, z, Nat.zero_add]
              split
              · rename_i hfo
                rw [← h.cnt.below G q T R s0 L' e2 m7 htr, List.count_eq_zero]
                intro hmm
                rw [((h.cover s0 st0 type e1 (by rw [e7]; exact hm)).2 (.inr hmm) (e9.trans hfo)).1] at hsc
                cases hsc
              · rfl
          · have hne' : ¬ contMask = {} := by decide
            simp only [m5, hne', if_false, if_true]
            by_cases ht2 : type = .Content
            · subst ht2
              have htr : trig a t = false := by unfold trig; rw [m1]; simp only [m5]; rfl
              have z := noT t x.1 m1 (by rw [m5]; decide)
              rw [h.cnt.top t x.2 m3 m7 htr] at z
              rw [z]
              simp only [ite_self, Nat.zero_add]
              split
              · rename_i hfo
                refine belowR_zero _ _ q cs ?_
                rw [← h.cnt.below G q T R t x.2 m3 m7 htr, List.count_eq_zero]
                intro hm
                rw [((h.cover t x.1 .Content m1 (by rw [m5]; decide)).2 (.inr hm) hfo).1] at hsc
                cases hsc
              · rfl
            · cases type <;> first | rfl | exact (ht2 rfl).elim
          · have hne' : ¬ valMask = {} := by decide
            have hne2 : ¬ valMask = contMask := by decide
            simp only [m5, hne', hne2, if_false]
            cases hm : valMask.matches type with
            | true =>
              by_cases hn : ∃ name, ph = .named name
              · obtain ⟨name, rfl⟩ := hn
                have := h.att.named name rfl t x.1 x.2 L e m1 m3 m8 m5
                have hlen : s.tokens.length - R.flatten.length = T.length := by
                  have := congrArg List.length h.idx
                  rw [length_rev] at this
                  simp only [Sel.idx, List.length_map, List.flatten_cons, List.length_append] at this
                  omega
                rw [show (T :: R).tail = R from rfl, hlen, h.none_live (noT t x.1 m1 (by rw [m5]; exact hm))] at this
                rw [m8.lab]
                rcases val_matches type hm with rfl | rfl
                · simp only [List.getLast?_append, List.getLast?_singleton, Option.some_or, List.dropLast_concat]
                  by_cases c1 : accepts e.key name
                  · rw [if_pos c1] at this
                    rw [← this, ite_self]
                  · rw [if_neg (fun hx => c1 hx.1)]
                · simp only [List.getLast?_append, List.getLast?_singleton, Option.some_or, List.dropLast_concat]
                  by_cases c1 : accepts e.key name
                  · rw [if_pos c1] at this
                    rw [← this, ite_self]
                  · rw [if_neg (fun hx => c1 hx.1)]
              · rcases val_matches type hm with rfl | rfl
                · cases ph <;> first | rfl | exact (hn ⟨_, rfl⟩).elim
                · cases ph <;> first | rfl | exact (hn ⟨_, rfl⟩).elim
            | false => cases type <;> first | rfl | exact absurd hm (by decide)
        · rw [if_neg m2] at ho
          cases ho
      rw [e]
      clear e hp
      generalize outs a lab ty = l
      induction l with
      | nil => rfl
      | cons x l ih => simpa using ih

/-- The elements after an item that is no tag. -/
def attRev (ph : Ph) (q : List Open) (type : ElementType) (key : List Byte) : List Open :=
  match type, ph, q with
  | .TagAttribValue, .named nm, x :: q => ⟨x.name, x.attrs ++ [(nm, key)]⟩ :: q
  | .HeaderAttribValue, .named nm, x :: q => ⟨x.name, x.attrs ++ [(nm, key)]⟩ :: q
  | _, _, _ => q

/-- The elements from the end after an item. -/
def afterRev (ph : Ph) (q : List Open) (type : ElementType) (key : List Byte) : List Open :=
  match type with
  | .OpenTag => ⟨key, []⟩ :: q
  | .CloseTag | .CloseTagIm => q.tail
  | _ => attRev ph q type key

theorem attRev_other {type : ElementType} (h : valMask.matches type = false) (ph : Ph) (q : List Open) (key : List Byte) :
    attRev ph q type key = q := by
  unfold attRev
  split
  · exact absurd h (by decide)
  · exact absurd h (by decide)
  · rfl

theorem Cnt.swap {T T' : List Nat} {x x' : Open} (h : Cnt a lab G B (T :: R) (x :: q))
    (h1 : ∀ t L, lab[t]? = some L → G L → trig a t = false → T'.count t = W B L (x' :: q))
    (h2 : ∀ t M L e, lab[t]? = some M → AttrOf a G M L e → pool B e L (x' :: q) = 0 → T'.count t = 0) : Cnt a lab G B (T' :: R) (x' :: q) :=
  ⟨h1, h2, h.2.2⟩

/-- The ways outside of the elements after an item: those of the header are added. -/
def baseAfter (B : List Edge → Nat) (ph : Ph) (q : List Open) (type : ElementType) (key : List Byte) : List Edge → Nat :=
  match q, type with
  | [], .OpenTag => B
  | [], _ => fun L => B L + gain B type key ph [] L
  | _ :: _, _ => B

theorem baseAfter_open (ph : Ph) (q : List Open) (key : List Byte) : baseAfter B ph q .OpenTag key = B := by cases q <;> rfl

theorem baseAfter_root {type : ElementType} (ho : type ≠ .OpenTag) (ph : Ph) (key : List Byte) (L : List Edge) :
    baseAfter B ph [] type key L = B L + gain B type key ph [] L := by
  cases type <;> first | rfl | exact (ho rfl).elim

theorem baseAfter_inner (ph : Ph) (x : Open) (q : List Open) (type : ElementType) (key : List Byte) :
    baseAfter B ph (x :: q) type key = B := rfl

theorem Cnt.grow {T X : List Nat} {type : ElementType} {key : List Byte} {ph : Ph} (ho : type ≠ .OpenTag)
    (hs : q ≠ [] → type = .HeaderStart → ph ≠ .start)
    (h : Cnt a lab G B (T :: R) q)
    (hX : ∀ t L, lab[t]? = some L → G L → trig a t = false → X.count t = gain B type key ph q L)
    (hXa : ∀ (t : Nat) M L e, lab[t]? = some M → AttrOf a G M L e → pool B e L q = 0 → X.count t = 0) :
    Cnt a lab G (baseAfter B ph q type key) ((T ++ X) :: R) (attRev ph q type key) := by
  cases q with
  | nil =>
    have he : attRev ph [] type key = [] := by
      unfold attRev
      split
      · rename_i h; cases h
      · rename_i h; cases h
      · rfl
    rw [he]
    refine ⟨fun t L h1 h2 h3 => ?_, fun t M L e h1 h2 h3 => ?_, h.2.2⟩
    · rw [List.count_append, hX t L h1 h2 h3, h.1 t L h1 h2 h3, W_root, W_root, baseAfter_root ho]
    · rw [pool_root, baseAfter_root ho] at h3
      have h4 : pool B e L [] = 0 := by rw [pool_root]; omega
      rw [List.count_append, hXa t M L e h1 h2 h4, h.2.1 t M L e h1 h2 h4]
  | cons x q =>
    rw [baseAfter_inner]
    by_cases hn : ∃ nm, valMask.matches type = true ∧ ph = .named nm
    · obtain ⟨nm, hm, rfl⟩ := hn
      have he : attRev (.named nm) (x :: q) type key = ⟨x.name, x.attrs ++ [(nm, key)]⟩ :: q := by
        rcases val_matches type hm with rfl | rfl <;> rfl
      rw [he]
      refine h.swap (fun t L h1 h2 h3 => ?_) (fun t M L e h1 h2 h3 => ?_)
      · rw [List.count_append, hX t L h1 h2 h3, h.1 t L h1 h2 h3, W_att, gain_named hm]
      · have : pool B e L (x :: q) = 0 := by
          have h4 : W B L (⟨x.name, x.attrs ++ [(nm, key)]⟩ :: q) + (if e.follow then Path.below B L (x :: q) else 0) = 0 := h3
          rw [W_att] at h4
          have : W B L (⟨x.name, x.attrs⟩ :: q) + (if e.follow then Path.below B L (x :: q) else 0) = 0 := by omega
          exact this
        rw [List.count_append, hXa t M L e h1 h2 this, h.2.1 t M L e h1 h2 this]
    · have he : attRev ph (x :: q) type key = x :: q := by
        unfold attRev
        split
        · exact (hn ⟨_, by decide, rfl⟩).elim
        · exact (hn ⟨_, by decide, rfl⟩).elim
        · rfl
      have hz : ∀ L, gain B type key ph (x :: q) L = 0 := by
        intro L
        unfold gain
        split
        · exact (ho rfl).elim
        · exact (hs (by simp) rfl rfl).elim
        · exact (hn ⟨_, by decide, rfl⟩).elim
        · exact (hn ⟨_, by decide, rfl⟩).elim
        · rfl
      rw [he]
      refine ⟨fun t L h1 h2 h3 => ?_, fun t M L e h1 h2 h3 => ?_, h.2.2⟩
      · rw [List.count_append, hX t L h1 h2 h3, hz L, h.1 t L h1 h2 h3]; rfl
      · rw [List.count_append, hXa t M L e h1 h2 h3, h.2.1 t M L e h1 h2 h3]

theorem match_more {m : Mask} {t u : ElementType} (h : m.matches t = true) : (m.match u).matches t = true := by
  revert h
  simp only [Mask.match, Mask.matches, Nat.testBit_or, Bool.or_eq_true]
  exact .inl

theorem match_other {m : Mask} (h : m.matches .Content = false) : (m.match .OpenTag).matches .Content = false := by
  revert h
  simp only [Mask.match, Mask.matches, Nat.testBit_or, Bool.or_eq_false_iff]
  exact fun h => ⟨h, by decide⟩

theorem count_filter_le {X : List Nat} {t : Nat} (h : X.count t = 0) (p : Nat → Bool) : (X.filter p).count t = 0 := by
  rw [List.count_eq_zero] at h ⊢
  intro hm
  exact h (List.mem_filter.1 hm).1

theorem Stk.grow {stk : List Scope} {T T' : List Nat} (h : Stk a stk (T :: R)) : Stk a stk (T' :: R) := by
  cases stk with
  | nil => exact h
  | cons sc stk => exact ⟨h.1, h.2.1, h.2.2.1, h.2.2.2⟩

theorem sums_next {ph : Ph} {type : ElementType} {key : List Byte} (h : ph.next type key ≠ .off) (ho : type ≠ .OpenTag)
    (q : List Open) (cs : List (Nat × Nat)) : ph ≠ .off ∧ sumsAfter q cs type = cs := by
  cases ph <;> cases type <;> first | exact (h rfl).elim | exact (ho rfl).elim | exact ⟨(fun hx => nomatch hx), rfl⟩

/-- Activated at an item in the tag. -/
theorem gain_tag {ph : Ph} {type : ElementType} {key : List Byte} {L : List Edge} (ho : type ≠ .OpenTag) (h : gain B type key ph q L ≠ 0) :
    ph ≠ .off ∧ type ≠ .Content := by
  unfold gain at h
  split at h
  · exact (ho rfl).elim
  · exact ⟨fun hx => (nomatch hx), fun hx => (nomatch hx)⟩
  · exact ⟨fun hx => (nomatch hx), fun hx => (nomatch hx)⟩
  · exact ⟨fun hx => (nomatch hx), fun hx => (nomatch hx)⟩
  · exact (h rfl).elim

/-- The invariant is kept, the contents are counted, and the reports are counted. -/
theorem Inv.itemR (g : Goal a lab ty G) {ph : Ph} (h : Inv a lab ty G B ph q R s) (hr : Rg a ty ph R cs s.tokens) (type : ElementType) (key : List Byte)
    (hh : type = .HeaderStart → ∀ L e, G (L ++ [e]) → e.mask = tagMask → accepts e.key key → q = [] ∧ (ph = .start ∨ B L = 0))
    (hp : Asks a lab ty G → PhOk (RootAsk a lab ty) B ph q type) (hs : q ≠ [] → ph ≠ .start) :
    ∃ N rs s' R', (∀ n, N ≤ n → Sel.push n false type key s = (.ok rs, s')) ∧
      Inv a lab ty G (baseAfter B ph q type key) (ph.next type key) (afterRev ph q type key) R' s' ∧
      Rg a ty (ph.next type key) R' (sumsAfter q cs type) s'.tokens ∧
      rs.count ty = ((outs a lab ty).map (amountR B type key ph q cs)).sum := by
  obtain ⟨T, R0, rfl⟩ : ∃ T R0, R = T :: R0 := by
    cases R with
    | nil => exact h.cnt.elim
    | cons T R => exact ⟨T, R, rfl⟩
  obtain ⟨N, rs, s2, X, h1, h2, h3, h4, ha, hd, hev, h5⟩ := h.fed g hr type key hh hp
  have hrun : ∀ n, N ≤ n → Sel.push n false type key s = (.ok rs, Sel.closeElement s2) := by
    intro n hn
    have := h2 n hn
    unfold Sel.push
    rw [M.bind_ok (M.modify_run _ _)]
    rw [M.bind_run] at this
    cases h6 : Sel.fetch n (Sel.initElement type key s) with
    | mk r s3 =>
      rw [h6] at this
      cases r with
      | stop e => cases this
      | ok e =>
        simp only [] at this
        rw [M.bind_ok h6, M.bind_ok this, M.bind_ok (M.modify_run _ _)]
        rfl
  have hty : s2.type = type := h1.type.trans (init_type type)
  have hidx : s2.idx = (T :: R0).reverse.flatten ++ X.filter (!trig a ·) := by rw [h1.idx, init_idx, h.idx]
  have hlen : s.tokens.length = (T :: R0).flatten.length := by
    have := congrArg List.length h.idx
    rw [length_rev] at this
    simpa [Sel.idx] using this
  have hfol : s2.follows = fols a 0 s2.idx := by
    rw [h1.follows, hidx, fols_append, Nat.zero_add, length_rev]
    have e1 : (Sel.initElement type key s).follows = s.follows := by
      unfold Sel.initElement; simp only []; split <;> rfl
    have e2 : (Sel.initElement type key s).tokens = s.tokens := by
      unfold Sel.initElement; simp only []; split <;> rfl
    rw [e1, e2, h.follows, h.idx, hlen]
  have hatm : s2.atm = a := by
    rw [h1.atm, ← h.atm]; unfold Sel.initElement; simp only []; split <;> rfl
  have hfr : ∀ x, x = (if s.type = ElementType.OpenTag then s.scope.tokenTo else s.scope.tokenFrom) →
      x = R0.flatten.length := fun x hx => hx.trans h.from'
  have hto : s2.scope.tokenTo = (T :: R0).flatten.length := by
    rw [h1.to, ← hlen]; unfold Sel.initElement; simp only []; split <;> rfl
  have hfrom : s2.scope.tokenFrom = R0.flatten.length := by
    apply hfr
    rw [h1.from']; unfold Sel.initElement; simp only []; split <;> rfl
  have hquiet : NoCont a → s2.scope.mask.matches .Content = false ∧ s2.scope.followMask.matches .Content = false := by
    intro hnc
    obtain ⟨m1, m2⟩ := h.quiet hnc s.scope (List.mem_cons_self ..)
    have m3 : (Sel.initElement type key s).scope.mask.matches .Content = false := by
      unfold Sel.initElement
      simp only []
      split
      · exact match_other m2
      · exact m1
    have m4 : (Sel.initElement type key s).scope.followMask.matches .Content = false := by
      unfold Sel.initElement
      simp only []
      split <;> exact m2
    have m5 : ¬ (s2.scope.mask.matches .Content = true ∨ s2.scope.followMask.matches .Content = true) := by
      intro hx
      rcases h1.only .Content hx with k | k | ⟨j, -, st, k1, k2⟩
      · rw [m3] at k; cases k
      · rw [m4] at k; cases k
      · rw [hnc j st k1] at k2; cases k2
    exact ⟨Bool.not_eq_true _ ▸ fun k => m5 (.inl k), Bool.not_eq_true _ ▸ fun k => m5 (.inr k)⟩
  have hdeep : NoCont a → ∀ (k : Nat) (tk : Token) (st : State), s2.tokens[k]? = some tk → a[tk.stateidx]? = some st →
      st.core.mask = attrMask → st.core.follow = true → st.core.cntEnd = -1 → tk.core = st.core := by
    intro hnc k tk st k2 k3 k4 k5 k6
    rcases Nat.lt_or_ge k s.tokens.length with hk | hk
    · obtain ⟨t0, ht0⟩ : ∃ t0, s.tokens[k]? = some t0 := ⟨_, List.getElem?_eq_getElem hk⟩
      have m2 : s2.idx[k]? = s.idx[k]? := by
        rw [h1.idx, init_idx, List.getElem?_append_left (by simpa [Sel.idx] using hk)]
      unfold Sel.idx at m2
      rw [List.getElem?_map, List.getElem?_map, k2, ht0] at m2
      simp only [Option.map_some, Option.some.injEq] at m2
      rw [m2] at k3
      have m5 := h.att.deep hnc k t0 st ht0 k3 k4 k5 k6
      obtain ⟨t', m6, -, m7⟩ := h1.life k t0 st (by rw [init_tokens]; exact ht0) k3 k6
      rw [k2] at m6
      cases m6
      rcases m7 with m7 | ⟨-, m7, m8⟩
      · rw [m7, m5]
      · rw [m5, k4, init_type] at m7
        rw [init_type] at m8
        have ht : type = .Content := by revert m7; cases type <;> decide
        subst ht
        rw [show (Sel.initElement .Content key s).scope.mask = s.scope.mask from rfl, (h.quiet hnc s.scope (List.mem_cons_self ..)).1] at m8
        cases m8
    · obtain ⟨st', m1, m2⟩ := h1.fresh k tk (by rw [init_tokens]; exact hk) k2
      rw [k3] at m1
      cases m1
      exact m2
  refine ⟨N, rs, Sel.closeElement s2, ?_⟩
  by_cases ho : type = .OpenTag
  · subst ho
    have hc : Sel.closeElement s2 = s2 := by
      unfold Sel.closeElement
      rw [if_neg (by rw [hty]; decide)]
    rw [hc] at hrun ⊢
    refine ⟨(X.filter (!trig a ·)) :: T :: R0, hrun, ?_, ?_, h5⟩
    rotate_left
    · refine ⟨⟨fun k k1 k2 tk st k3 k4 k5 k6 => ?_, ?_⟩, (fun name hn => nomatch hn), fun _ => ⟨cs, rfl⟩⟩
      · obtain ⟨st', i1, i2⟩ := h1.fresh k tk (by rw [init_tokens, hlen]; exact k1) k3
        rw [k4] at i1
        cases i1
        rw [i2]
        unfold num
        cases st.core.follow <;> rfl
      · have := hr.lev.item .OpenTag hev
        exact this
    rw [baseAfter_open]
    refine ⟨hatm, h1.tok, by rw [hidx]; simp, hfol, ?_, ?_, ?_, h3, ?_, ?_, fun hnc sc hsc => ?_⟩
    rotate_right
    · rcases List.mem_cons.1 hsc with rfl | hsc
      · exact hquiet hnc
      · rw [h1.stk] at hsc
        rcases List.mem_cons.1 hsc with rfl | hsc
        · exact h.quiet hnc s.scope (List.mem_cons_self ..)
        · exact h.quiet hnc sc (List.mem_cons_of_mem _ hsc)
    · rw [h1.stk]
      unfold Sel.initElement
      simp only [if_true]
      refine ⟨h.from', hlen, ?_, h.cover, h.stk⟩
      rw [h.follows, fols_length, h.idx, countP_rev]
    · refine ⟨fun t L k1 k2 k3 => ?_, fun t M L e k1 k2 _ => ?_, h.cnt⟩
      rotate_left
      · exact count_filter_le ((ha t M L e k1 k2).2.1 (by decide) (by decide)) _
      rw [List.count_filter (by rw [k3]; rfl)]
      exact h4 t L k1 k2
    · rw [hty, if_pos rfl, hto]; rfl
    · intro j st t k1 k2
      have new := fun hj : j ∈ X.filter (!trig a ·) => h1.cover j st t (List.mem_filter.1 hj).1 k1 k2
      refine ⟨fun hj => (new hj).1, fun hj hf => ?_⟩
      rcases hj with hj | hj
      · exact ⟨(new hj).1, (new hj).2 hf⟩
      · have := ((h.cover j st t k1 k2).2 (by
          rw [List.flatten_cons, List.mem_append] at hj
          exact hj) hf).2
        refine ⟨h1.mask t ?_, h1.fmask t ?_⟩
        · unfold Sel.initElement
          simp only [if_true]
          exact match_more this
        · unfold Sel.initElement
          simp only [if_true]
          exact this
    · refine ⟨fun _ k tk st k1 k2 k3 _ _ => ?_, hdeep, fun name hn => nomatch hn⟩
      obtain ⟨st', i1, i2⟩ := h1.fresh k tk (by rw [init_tokens, hlen]; exact k1) k2
      rw [k3] at i1
      cases i1
      exact i2
  · have hX : ∀ t L, lab[t]? = some L → G L → trig a t = false →
        (X.filter (!trig a ·)).count t = gain B type key ph q L := fun t L k1 k2 k3 => by
      rw [List.count_filter (by rw [k3]; rfl)]
      exact h4 t L k1 k2
    have hstk : s2.scopestk = s.scopestk := by
      rw [h1.stk]; unfold Sel.initElement; simp only [ho, if_false]
    have hXa : ∀ (t : Nat) M L e, lab[t]? = some M → AttrOf a G M L e → pool B e L q = 0 → (X.filter (!trig a ·)).count t = 0 :=
      fun t M L e k1 k2 k3 => count_filter_le ((ha t M L e k1 k2).1 k3) _
    have hsc : ∀ t, (s.scope.mask.matches t = true → s2.scope.mask.matches t = true) ∧
        (s.scope.followMask.matches t = true → s2.scope.followMask.matches t = true) := by
      intro t
      have e1 : (Sel.initElement type key s).scope.mask = s.scope.mask := by unfold Sel.initElement; simp only [ho, if_false]
      have e2 : (Sel.initElement type key s).scope.followMask = s.scope.followMask := by
        unfold Sel.initElement; simp only [ho, if_false]
      exact ⟨fun k => h1.mask t (by rw [e1]; exact k), fun k => h1.fmask t (by rw [e2]; exact k)⟩
    have hcov : Covers a s2.scope ((T ++ X.filter (!trig a ·)) :: R0) := by
      intro j st t k1 k2
      have new := fun hj : j ∈ X.filter (!trig a ·) => h1.cover j st t (List.mem_filter.1 hj).1 k1 k2
      have old := h.cover j st t k1 k2
      refine ⟨fun hj => ?_, fun hj hf => ?_⟩
      · rcases List.mem_append.1 hj with hj | hj
        · exact (hsc t).1 (old.1 hj)
        · exact (new hj).1
      · rw [List.mem_append, or_assoc] at hj
        rcases hj with hj | hj | hj
        · exact ⟨(hsc t).1 (old.2 (.inl hj) hf).1, (hsc t).2 (old.2 (.inl hj) hf).2⟩
        · exact ⟨(new hj).1, (new hj).2 hf⟩
        · exact ⟨(hsc t).1 (old.2 (.inr hj) hf).1, (hsc t).2 (old.2 (.inr hj) hf).2⟩
    have hlen2 : s2.tokens.length = R0.flatten.length + (T.length + (X.filter (!trig a ·)).length) := by
      have := congrArg List.length hidx
      rw [List.length_append, length_rev] at this
      simp only [Sel.idx, List.length_map, List.flatten_cons, List.length_append] at this
      omega
    have hnext : ph.next type key ≠ .off → ph ≠ .off ∧ attrMask.rejects type = false := by
      intro hne
      cases ph <;> cases type <;> first | exact (hne rfl).elim | exact (ho rfl).elim | exact ⟨by simp, by decide⟩
    have hnamed : ∀ name, ph.next type key = .named name → attrMask.matches type = true ∧ name = key := by
      intro name hn
      cases ph <;> cases type <;> first | (cases hn; exact ⟨by decide, rfl⟩) | cases hn
    have hatt : Att a lab G (baseAfter B ph q type key) (ph.next type key) (attRev ph q type key) ((T ++ X.filter (!trig a ·)) :: R0) s2.tokens := by
      refine ⟨fun hne k tk st k1 k2 k3 k4 k5 => ?_, hdeep, fun name hn j st M L e k1 k2 k3 k4 => ?_⟩
      · obtain ⟨i1, i2⟩ := hnext hne
        rcases Nat.lt_or_ge k s.tokens.length with hk | hk
        · obtain ⟨t0, ht0⟩ : ∃ t0, s.tokens[k]? = some t0 := ⟨_, List.getElem?_eq_getElem hk⟩
          obtain ⟨st0, m1, -⟩ := h.tok t0 (List.mem_of_getElem? ht0)
          by_cases hcnt : st0.core.cntEnd = -1
          · obtain ⟨t', m2, m3, m4⟩ := h1.life k t0 st0 (by rw [init_tokens]; exact ht0) m1 hcnt
            rw [k2] at m2
            cases m2
            rw [m3, m1] at k3
            cases k3
            have m5 := h.att.alive i1 k t0 st k1 ht0 m1 k4 k5
            rcases m4 with m4 | ⟨-, m4, -⟩
            · rw [m4, m5]
            · rw [m5, k4, init_type, i2] at m4
              cases m4
          · have m2 : s2.idx[k]? = s.idx[k]? := by
              rw [h1.idx, init_idx, List.getElem?_append_left (by simpa [Sel.idx] using hk)]
            unfold Sel.idx at m2
            rw [List.getElem?_map, List.getElem?_map, k2, ht0] at m2
            simp only [Option.map_some, Option.some.injEq] at m2
            rw [m2, m1] at k3
            cases k3
            exact (hcnt k5).elim
        · obtain ⟨st', m1, m2⟩ := h1.fresh k tk (by rw [init_tokens]; exact hk) k2
          rw [k3] at m1
          cases m1
          exact m2
      · obtain ⟨i1, i2⟩ := hnext (by rw [hn]; exact fun hx => nomatch hx)
        obtain ⟨hty, rfl⟩ := hnamed name hn
        rw [attRev_other (by rcases attr_matches type hty with rfl | rfl <;> decide)]
        have hW : pool (baseAfter B ph q type name) e L q = pool B e L q := by
          cases q with
          | nil =>
            rw [pool_root, pool_root, baseAfter_root ho]
            rcases attr_matches type hty with rfl | rfl <;> rfl
          | cons x q => rfl
        rw [hW]
        show (List.range' R0.flatten.length (s2.tokens.length - R0.flatten.length)).countP _ = _
        rw [hlen2, Nat.add_sub_cancel_left, ← List.range'_append_1, List.countP_append, hd hty j st M L e k1 k2 k3 k4, Nat.zero_add,
          ← (ha j M L e k2 k3).2.2 hty i1]
        have htr : trig a j = false := by unfold trig; rw [k1]; simp only [k4]; rfl
        rw [← List.count_filter (p := (!trig a ·)) (by rw [htr]; rfl), ← range_count _ j (T :: R0).reverse.flatten, ← hidx, length_rev,
          List.flatten_cons, List.length_append, Nat.add_comm T.length]
        apply List.countP_congr
        intro i hi
        refine ⟨live_idx, fun hx => ?_⟩
        unfold Sel.idx at hx
        rw [List.getElem?_map] at hx
        cases hti : s2.tokens[i]? with
        | none => rw [hti] at hx; simp at hx
        | some tk =>
          rw [hti] at hx
          have hx : tk.stateidx = j := by simpa using hx
          obtain ⟨st', m1, m2⟩ := h1.fresh i tk (by
            rw [init_tokens, hlen, List.flatten_cons, List.length_append, Nat.add_comm]
            exact (List.mem_range'_1.1 hi).1) hti
          rw [hx, k1] at m1
          cases m1
          unfold live
          rw [hti]
          simp only [hx, m2, k4, beq_self_eq_true, Bool.true_and]
          decide
    have hinv : Inv a lab ty G (baseAfter B ph q type key) (ph.next type key) (attRev ph q type key) ((T ++ X.filter (!trig a ·)) :: R0) s2 := by
      refine ⟨hatm, h1.tok, by rw [hidx]; simp, hfol, ?_, h.cnt.grow ho (fun k _ => hs k) hX hXa, ?_, h3, hcov, hatt, fun hnc sc hsc => ?_⟩
      rotate_right
      · rcases List.mem_cons.1 hsc with rfl | hsc
        · exact hquiet hnc
        · rw [hstk] at hsc
          exact h.quiet hnc sc (List.mem_cons_of_mem _ hsc)
      · rw [hstk]; exact h.stk.grow
      · rw [hty, if_neg ho]; exact hfrom
    have hlev : Lev a ty s2.tokens ((T ++ X.filter (!trig a ·)) :: R0) (if type = .Content then bump cs else cs) := by
      have hl := hr.lev.item type hev
      obtain ⟨c, cs, rfl⟩ : ∃ c cs', cs = c :: cs' := by
        cases cs with
        | nil => exact hr.lev.elim
        | cons c cs => exact ⟨c, cs, rfl⟩
      have fresh : ∀ k, R0.flatten.length + T.length ≤ k → ∀ (tk : Token) (st : State), s2.tokens[k]? = some tk → a[tk.stateidx]? = some st →
          st.core.typeidx = ty → st.core.mask = contMask → (ph ≠ .off ∧ type ≠ .Content) ∧ tk.core = st.core := by
        intro k k1 tk st k2 k3 k4 k5
        have k6 : (T :: R0).flatten.length ≤ k := by rw [List.flatten_cons, List.length_append]; omega
        obtain ⟨st', m1, m2⟩ := h1.fresh k tk (by rw [init_tokens, hlen]; exact k6) k2
        rw [k3] at m1
        cases m1
        refine ⟨?_, m2⟩
        have m3 : s2.idx[k]? = some tk.stateidx := by unfold Sel.idx; rw [List.getElem?_map, k2]; rfl
        rw [hidx, List.getElem?_append_right (by rw [length_rev]; exact k6)] at m3
        have m4 := (List.mem_filter.1 (List.mem_of_getElem? m3)).1
        obtain ⟨L, m5, m6⟩ := g.out _ st k3 k4
        rcases m6 with ⟨m6, -⟩ | ⟨-, m6⟩ | ⟨m6, -⟩
        · rw [k5] at m6; exact absurd m6 (by decide)
        · exact gain_tag ho (by rw [← h4 _ L m5 m6]; exact fun hz => List.count_eq_zero.1 hz m4)
        · rw [k5] at m6; exact absurd m6 (by decide)
      by_cases ht : type = .Content
      · rw [if_pos ht] at hl ⊢
        exact hl.more fun k k1 tk st k2 k3 k4 k5 => ((fresh k k1 tk st k2 k3 k4 k5).1.2 ht).elim
      · rw [if_neg ht] at hl ⊢
        refine hl.more fun k k1 tk st k2 k3 k4 k5 => ?_
        obtain ⟨m1, m2⟩ := fresh k k1 tk st k2 k3 k4 k5
        obtain ⟨cs', m3⟩ := hr.zero m1.1
        exact ⟨(List.cons.inj m3).1, m2⟩
    by_cases hcl : type = .CloseTag ∨ type = .CloseTagIm
    · have hoff : ph.next type key = .off := by
        rcases hcl with rfl | rfl <;> cases ph <;> rfl
      have hrg : ∀ R' cs' toks, Lev a ty toks R' cs' → Rg a ty (ph.next type key) R' cs' toks := by
        intro R' cs' toks hl
        rw [hoff]
        exact ⟨hl, fun _ hn => (nomatch hn), fun hn => (hn rfl).elim⟩
      rw [if_neg (by rcases hcl with rfl | rfl <;> decide)] at hlev
      have haft : afterRev ph q type key = q.tail := by
        rcases hcl with rfl | rfl <;> rfl
      rw [haft]
      rw [attRev_other (by rcases hcl with rfl | rfl <;> decide)] at hinv
      have hstk2 := hinv.stk
      cases hsk : s2.scopestk with
      | nil =>
        have hc : Sel.closeElement s2 = s2 := by
          unfold Sel.closeElement
          rw [if_pos (by rw [hty]; exact hcl), hsk]
        rw [hsk] at hstk2
        have hR : R0 = [] := by
          have : R0.length + 1 = 1 := hstk2
          exact List.length_eq_zero_iff.1 (by omega)
        have hq : q = [] := by
          cases q with
          | nil => rfl
          | cons n q =>
            have := h.cnt.2.2
            rw [hR] at this
            exact this.elim
        rw [hc] at hrun ⊢
        subst hq
        refine ⟨_, hrun, hinv, hrg _ _ _ ?_, h5⟩
        have : sumsAfter [] cs type = cs := by rcases hcl with rfl | rfl <;> rfl
        rw [this]
        exact hlev
      | cons sc stk =>
        rw [hsk] at hstk2
        obtain ⟨k1, k2, k3, k5, k4⟩ := hstk2
        have hc : Sel.closeElement s2 = { s2 with
            scope := sc, scopestk := stk, follows := s2.follows.take sc.followidx, tokens := s2.tokens.take sc.tokenTo } := by
          have i1 : sc.followidx - s2.follows.length = 0 := by
            rw [k3, hinv.follows, fols_length, hinv.idx, countP_rev, List.flatten_cons, List.countP_append]
            omega
          have i2 : sc.tokenTo - s2.tokens.length = 0 := by
            have := congrArg List.length hinv.idx
            rw [length_rev] at this
            simp only [Sel.idx, List.length_map, List.flatten_cons, List.length_append] at this
            omega
          unfold Sel.closeElement
          rw [if_pos (by rw [hty]; exact hcl), hsk]
          simp only [i1, i2, List.replicate_zero, List.append_nil]
        rw [hc] at hrun ⊢
        have hR : R0 ≠ [] := by
          rintro rfl
          cases stk with
          | nil => simp [Stk] at k4
          | cons _ _ => exact k4.elim
        have j1 : s2.idx.take sc.tokenTo = R0.reverse.flatten := by
          rw [hinv.idx, k2, ← length_rev, List.reverse_cons, List.flatten_append, List.take_left]
        have hsum : sumsAfter q cs type = cs.tail := by
          cases q with
          | nil => exact (hR h.cnt.2.2).elim
          | cons x q => rcases hcl with rfl | rfl <;> rfl
        have hlow : Lev a ty (s2.tokens.take sc.tokenTo) R0 cs.tail := by
          cases cs with
          | nil => exact hlev.elim
          | cons c cs =>
            refine hlev.2.mono fun k k6 tk' k7 => ?_
            rw [List.getElem?_take] at k7
            split at k7
            · exact k7
            · cases k7
        refine ⟨R0, hrun, ⟨hatm, ?_, ?_, ?_, k4, ?_, ?_, h3, k5, ?_, fun hnc sc' hsc => hinv.quiet hnc sc' (by
          rw [hsk]
          exact List.mem_cons_of_mem _ hsc)⟩, hrg _ _ _ (by rw [hsum]; exact hlow), h5⟩
        · intro tk htk
          exact h1.tok tk (List.mem_of_mem_take htk)
        · show (s2.tokens.take sc.tokenTo).map _ = _
          rw [List.map_take]
          exact j1
        · show s2.follows.take sc.followidx = fols a 0 ((s2.tokens.take sc.tokenTo).map _)
          rw [List.map_take]
          rw [show (s2.tokens.map (·.stateidx)).take sc.tokenTo = R0.reverse.flatten from j1]
          rw [hinv.follows, hinv.idx, List.reverse_cons, List.flatten_append, fols_append, k3, ← countP_rev,
            ← fols_length a _ 0, List.take_left]
        · cases q with
          | nil =>
            exact (hR h.cnt.2.2).elim
          | cons n q => exact h.cnt.2.2
        · show (if s2.type = .OpenTag then sc.tokenTo else sc.tokenFrom) = _
          rw [hty, if_neg ho]
          exact k1
        · rw [hoff]
          refine ⟨fun hne => (hne rfl).elim, fun hnc k tk st k6 => hdeep hnc k tk st ?_, fun name hn => nomatch hn⟩
          have k6 : (s2.tokens.take sc.tokenTo)[k]? = some tk := k6
          rw [List.getElem?_take] at k6
          split at k6
          · exact k6
          · cases k6
    · have hc : Sel.closeElement s2 = s2 := by
        unfold Sel.closeElement
        rw [if_neg (by rw [hty]; exact hcl)]
      have haft : afterRev ph q type key = attRev ph q type key := by
        cases type <;> first | rfl | exact (ho rfl).elim | exact (hcl (.inl rfl)).elim | exact (hcl (.inr rfl)).elim
      rw [hc] at hrun ⊢
      rw [haft]
      have hsum : sumsAfter q cs type = if type = .Content then bump cs else cs := by
        cases type <;> first | rfl | exact (ho rfl).elim | exact (hcl (.inl rfl)).elim | exact (hcl (.inr rfl)).elim
      refine ⟨_, hrun, hinv, ⟨by rw [hsum]; exact hlev, fun name hn k tk st k1 k2 k3 k4 k5 k6 => ?_, fun hne => ?_⟩, h5⟩
      · obtain ⟨i1, rfl⟩ := hnamed name hn
        rcases Nat.lt_or_ge k s.tokens.length with hk | hk
        · obtain ⟨L, m1, m2⟩ := g.out _ st k3 k4
          rcases m2 with ⟨m2, -⟩ | ⟨m2, -⟩ | ⟨-, -, L', e, m2⟩
          · rw [k5] at m2; exact absurd m2 (by decide)
          · rw [k5] at m2; exact absurd m2 (by decide)
          · have := hd i1 _ st L L' e k3 m1 m2 k5
            rw [List.countP_eq_zero] at this
            refine (this k ?_ ?_).elim
            · rw [List.mem_range'_1]
              rw [hlen, List.flatten_cons, List.length_append] at hk
              exact ⟨k1, by omega⟩
            · unfold live
              rw [k2]
              simp [k6]
        · obtain ⟨st', m1, m2⟩ := h1.fresh k tk (by rw [init_tokens]; exact hk) k2
          rw [k3] at m1
          cases m1
          exact m2
      · obtain ⟨i1, i2⟩ := sums_next hne ho q cs
        rw [i2]
        exact hr.zero i1

/-- Outputs without ranges need not count. -/
theorem Inv.flat (hf : Flat a ty) {ph : Ph} (h : Inv a lab ty G B ph q R s) :
    ∃ cs, cs.length = q.length + 1 ∧ Rg a ty ph R cs s.tokens := by
  cases R with
  | nil => exact h.cnt.elim
  | cons T R0 =>
    have hl : R0.length = q.length := h.cnt.length
    refine ⟨List.replicate (q.length + 1) (0, 0), by simp, ?_, ?_, ?_⟩
    · refine Lev.flat (fun tk htk => ?_) hf _ _ (by simp [hl])
      obtain ⟨st, e1, -, -, -, e2⟩ := h.tok tk htk
      exact ⟨st, e1, e2⟩
    · intro name _ k tk st _ k2 k3 k4 k5 k6
      obtain ⟨st', e1, -, -, e2, -⟩ := h.tok tk (List.mem_of_getElem? k2)
      rw [k3] at e1
      cases e1
      rcases e2 (hf _ st k3 k4 (by rw [k5]; decide)) with e2 | e2
      · exact e2
      · rw [e2] at k6
        simp [Core.dead, Mask.matches] at k6
    · intro _
      exact ⟨List.replicate q.length (0, 0), rfl⟩

/-- The invariant is kept, and the reports are counted. -/
theorem Inv.item (g : Goal a lab ty G) (hf : Flat a ty) {ph : Ph} (h : Inv a lab ty G B ph q R s) (type : ElementType) (key : List Byte)
    (hh : type = .HeaderStart → ∀ L e, G (L ++ [e]) → e.mask = tagMask → accepts e.key key → q = [] ∧ (ph = .start ∨ B L = 0))
    (hp : Asks a lab ty G → PhOk (RootAsk a lab ty) B ph q type) (hs : q ≠ [] → ph ≠ .start) :
    ∃ N rs s' R', (∀ n, N ≤ n → Sel.push n false type key s = (.ok rs, s')) ∧
      Inv a lab ty G (baseAfter B ph q type key) (ph.next type key) (afterRev ph q type key) R' s' ∧
      rs.count ty = ((outs a lab ty).map (amount B type key ph q)).sum := by
  obtain ⟨cs, h1, h2⟩ := h.flat hf
  obtain ⟨N, rs, s', R', h3, h4, -, h5⟩ := h.itemR g h2 type key hh hp hs
  refine ⟨N, rs, s', R', h3, h4, ?_⟩
  rw [h5]
  congr 1
  apply List.map_congr_left
  intro o ho
  apply amountR_flat h1
  unfold outs at ho
  rw [List.mem_filterMap] at ho
  obtain ⟨x, hx, ho⟩ := ho
  obtain ⟨t, hx⟩ := List.mem_iff_getElem?.1 hx
  rw [List.getElem?_zip_eq_some] at hx
  split at ho
  · rename_i ht
    cases ho
    exact hf t x.1 hx.1 ht
  · cases ho

end TW.Path
