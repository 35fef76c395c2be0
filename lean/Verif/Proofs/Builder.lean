import Verif.Spec.Builder

/-!
# Proofs about the builder of state machines
-/

namespace TW.Builder

/-! ## One element -/

/-- An element made of the named transitions, the targets for the others, and the
lists of fallbacks, errors and actions. -/
def mkElem (P : List (Nat × Int)) (O F M : List Int) (A : List (Int × Int)) : RawElem where
  fallback := lastOr (-1) F
  miss := lastOr (-1) M
  op := (lastOr (-1, 0) A).1
  arg := (lastOr (-1, 0) A).2
  nofnext := if O = [] then P.length else 18
  next := (List.range 18).map fun c =>
    match P.lookup c with
    | some t => t
    | none => match O with
      | [] => -1
      | t :: _ => t

theorem elemOf_mk (i : Nat) (b : List BCall) :
    elemOf i b = mkElem (b.flatMap (pairs i)) (b.filterMap others) (b.filterMap fallbacks)
      (b.filterMap misses) (b.filterMap actions) := rfl

theorem lookup_none {P : List (Nat × Int)} {c : Nat} :
    P.lookup c = none ↔ ∀ p ∈ P, p.1 ≠ c := by
  induction P with
  | nil => simp
  | cons p P ih =>
    obtain ⟨a, t⟩ := p
    rw [List.lookup_cons]
    by_cases h : c = a
    · subst h; simp
    · have : (c == a) = false := by simpa using h
      rw [this]
      simp only [List.mem_cons, forall_eq_or_imp]
      exact ⟨fun h2 => ⟨fun e => h e.symm, ih.1 h2⟩, fun h2 => ih.2 h2.2⟩

theorem lookup_mem {P : List (Nat × Int)} {c : Nat} {t : Int} (h : P.lookup c = some t) :
    (c, t) ∈ P := by
  induction P with
  | nil => simp at h
  | cons p P ih =>
    obtain ⟨a, u⟩ := p
    rw [List.lookup_cons] at h
    by_cases hc : c = a
    · subst hc; simp at h; simp [h]
    · have : (c == a) = false := by simpa using hc
      rw [this] at h
      exact List.mem_cons_of_mem _ (ih h)

theorem lookup_snoc (P : List (Nat × Int)) (c a : Nat) (t : Int) :
    (P ++ [(a, t)]).lookup c =
      match P.lookup c with
      | some u => some u
      | none => if c = a then some t else none := by
  induction P with
  | nil =>
    by_cases h : c = a
    · subst h; simp
    · have : (c == a) = false := by simpa using h
      simp [List.lookup_cons, this, h]
  | cons p P ih =>
    obtain ⟨b, u⟩ := p
    rw [List.cons_append, List.lookup_cons, List.lookup_cons]
    by_cases h : c = b
    · subst h; simp
    · have : (c == b) = false := by simpa using h
      rw [this]; exact ih

/-- All targets given are states. -/
def Pos (P : List (Nat × Int)) (O : List Int) : Prop :=
  (∀ p ∈ P, 0 ≤ p.2) ∧ ∀ t ∈ O, 0 ≤ t

theorem next_free {P : List (Nat × Int)} {O F M : List Int} {A : List (Int × Int)} {c : Nat}
    (hc : c < 18) (hp : Pos P O) :
    (mkElem P O F M A).next[c]? = some (-1) ↔ O = [] ∧ ∀ p ∈ P, p.1 ≠ c := by
  unfold mkElem
  simp only [List.getElem?_map, List.getElem?_range hc, Option.map_some, Option.some.injEq]
  cases hl : P.lookup c with
  | some t =>
    have hm := lookup_mem hl
    have := hp.1 _ hm
    constructor
    · intro h; simp at this h; omega
    · intro ⟨_, h⟩; exact absurd rfl (h _ hm)
  | none =>
    have := lookup_none.1 hl
    cases O with
    | nil => simp; simpa using this
    | cons t O =>
      have := hp.2 t (by simp)
      constructor
      · intro h; simp at h; omega
      · intro ⟨h, _⟩; simp at h

theorem tr_mk {P : List (Nat × Int)} {O F M : List Int} {A : List (Int × Int)} {c : Nat} {ns : Int}
    (hp : Pos P O) (e' : RawElem) :
    BStm.trElem c ns (mkElem P O F M A) = .ok e' ↔
      (c < 18 ∧ 0 ≤ ns ∧ ns ≤ 64 ∧ O = [] ∧ ∀ p ∈ P, p.1 ≠ c) ∧
        e' = mkElem (P ++ [(c, ns)]) O F M A := by
  unfold BStm.trElem
  by_cases hc : 18 ≤ c
  · rw [if_pos hc]
    constructor
    · intro h; cases h
    · intro ⟨⟨h, _⟩, _⟩; omega
  · rw [if_neg hc]
    by_cases hn : ns < 0 ∨ 64 < ns
    · rw [if_pos hn]
      constructor
      · intro h; cases h
      · intro ⟨⟨_, h⟩, _⟩; omega
    · rw [if_neg hn]
      have hf := next_free (F := F) (M := M) (A := A) (by omega : c < 18) hp
      by_cases hx : (mkElem P O F M A).next[c]? = some (-1)
      · rw [if_neg (by simpa using hx)]
        have ⟨hO, hP⟩ := hf.1 hx
        have key : ({ mkElem P O F M A with
            next := (mkElem P O F M A).next.set c ns
            nofnext := (mkElem P O F M A).nofnext + 1 } : RawElem) =
            mkElem (P ++ [(c, ns)]) O F M A := by
          subst hO
          unfold mkElem
          simp only [RawElem.mk.injEq, true_and, if_true, List.length_append, List.length_cons,
            List.length_nil, Nat.zero_add]
          apply List.ext_getElem?
          intro j
          by_cases hj : j < 18
          · rw [List.getElem?_set]
            by_cases hcj : c = j
            · subst hcj
              simp only [if_true, List.length_map, List.length_range, hj, List.getElem?_map,
                List.getElem?_range hj, Option.map_some, lookup_snoc, lookup_none.2 hP]
            · simp only [hcj, if_false, List.getElem?_map, List.getElem?_range hj,
                Option.map_some, lookup_snoc]
              cases P.lookup j with
              | some t => rfl
              | none => simp [Ne.symm hcj]
          · rw [List.getElem?_eq_none (by simp; omega), List.getElem?_eq_none (by simp; omega)]
        rw [key]
        constructor
        · intro h
          cases h
          exact ⟨⟨by omega, by omega, by omega, hO, hP⟩, rfl⟩
        · rintro ⟨_, rfl⟩; rfl
      · rw [if_pos hx]
        constructor
        · intro h; cases h
        · intro ⟨⟨_, _, _, h⟩, _⟩; exact absurd (hf.2 h) hx

/-- Several transitions on one element. -/
def trs : List Nat → Int → RawElem → Except Cause RawElem
  | [], _, e => .ok e
  | c :: cs, ns, e =>
    match BStm.trElem c ns e with
    | .error x => .error x
    | .ok e' => trs cs ns e'

theorem trs_mk {cs : List Nat} {O F M : List Int} {A : List (Int × Int)} {ns : Int}
    (e' : RawElem) : ∀ {P : List (Nat × Int)}, Pos P O →
    (trs cs ns (mkElem P O F M A) = .ok e' ↔
      ((∀ c ∈ cs, c < 18 ∧ 0 ≤ ns ∧ ns ≤ 64 ∧ O = [] ∧ ∀ p ∈ P, p.1 ≠ c) ∧ cs.Nodup) ∧
        e' = mkElem (P ++ cs.map (·, ns)) O F M A) := by
  induction cs with
  | nil =>
    intro P hp
    simp only [trs, List.map_nil, List.append_nil]
    constructor
    · intro h; cases h; exact ⟨⟨by simp, List.nodup_nil⟩, rfl⟩
    · rintro ⟨_, rfl⟩; rfl
  | cons c cs ih =>
    intro P hp
    rw [trs]
    constructor
    · intro h
      split at h
      · cases h
      · rename_i e1 h1
        obtain ⟨⟨g1, g2, g3, g4, g5⟩, rfl⟩ := (tr_mk hp e1).1 h1
        have hp' : Pos (P ++ [(c, ns)]) O := ⟨by
          intro p hm
          rcases List.mem_append.1 hm with hm | hm
          · exact hp.1 p hm
          · simp at hm; subst hm; exact g2, hp.2⟩
        obtain ⟨⟨k1, k2⟩, k3⟩ := (ih hp').1 h
        refine ⟨⟨?_, ?_⟩, ?_⟩
        · intro x hx
          rcases List.mem_cons.1 hx with rfl | hx
          · exact ⟨g1, g2, g3, g4, g5⟩
          · obtain ⟨a1, a2, a3, a4, a5⟩ := k1 x hx
            exact ⟨a1, a2, a3, a4, fun p hp => a5 p (List.mem_append_left _ hp)⟩
        · refine List.nodup_cons.2 ⟨fun hm => ?_, k2⟩
          exact (k1 c hm).2.2.2.2 (c, ns) (by simp) rfl
        · rw [k3]; simp
    · rintro ⟨⟨k1, k2⟩, rfl⟩
      have hc := k1 c (by simp)
      have h1 := (tr_mk (F := F) (M := M) (A := A) (ns := ns) hp _).2 ⟨hc, rfl⟩
      rw [h1]
      have hp' : Pos (P ++ [(c, ns)]) O := ⟨by
        intro p hm
        rcases List.mem_append.1 hm with hm | hm
        · exact hp.1 p hm
        · simp at hm; subst hm; exact hc.2.1, hp.2⟩
      have hn := List.nodup_cons.1 k2
      refine (ih hp').2 ⟨⟨?_, hn.2⟩, by simp⟩
      intro x hx
      obtain ⟨a1, a2, a3, a4, a5⟩ := k1 x (List.mem_cons_of_mem _ hx)
      refine ⟨a1, a2, a3, a4, ?_⟩
      intro p hm
      rcases List.mem_append.1 hm with hm | hm
      · exact a5 p hm
      · simp at hm; subst hm
        intro e; simp at e; subst e; exact hn.1 hx

theorem lastOr_snoc {α : Type} (n : α) (l : List α) (a : α) : lastOr n (l ++ [a]) = a := by
  simp [lastOr]

theorem other_mk {P : List (Nat × Int)} {O F M : List Int} {A : List (Int × Int)} {ns : Int}
    (hp : Pos P O) (e' : RawElem) :
    BStm.otherElem ns (mkElem P O F M A) = .ok e' ↔
      (0 ≤ ns ∧ ns ≤ 64) ∧ e' = mkElem P (O ++ [ns]) F M A := by
  unfold BStm.otherElem
  by_cases hn : ns < 0 ∨ 64 < ns
  · rw [if_pos hn]
    constructor
    · intro h; cases h
    · intro ⟨h, _⟩; omega
  · rw [if_neg hn]
    have key : ({ mkElem P O F M A with
        next := (mkElem P O F M A).next.map (fun x => if x = -1 then ns else x)
        nofnext := 18 } : RawElem) = mkElem P (O ++ [ns]) F M A := by
      unfold mkElem
      simp only [RawElem.mk.injEq, true_and]
      refine ⟨by simp, ?_⟩
      rw [List.map_map]
      apply List.map_congr_left
      intro c _
      simp only [Function.comp]
      cases hl : P.lookup c with
      | some t =>
        have := hp.1 _ (lookup_mem hl)
        simp only
        rw [if_neg (by simp at this; omega)]
      | none =>
        cases O with
        | nil => simp
        | cons t O =>
          have := hp.2 t (by simp)
          simp only [List.cons_append]
          rw [if_neg (by omega)]
    rw [key]
    constructor
    · intro h; cases h; exact ⟨by omega, rfl⟩
    · rintro ⟨_, rfl⟩; rfl

theorem action_mk {P : List (Nat × Int)} {O F M : List Int} {A : List (Int × Int)} {op arg : Int}
    (e' : RawElem) :
    BStm.actionElem op arg (mkElem P O F M A) = .ok e' ↔
      ¬ (lastOr (-1, 0) A).1 ≠ -1 ∧ e' = mkElem P O F M (A ++ [(op, arg)]) := by
  unfold BStm.actionElem
  by_cases hb : (mkElem P O F M A).op ≠ -1
  · rw [if_pos hb]
    constructor
    · intro h; cases h
    · intro ⟨h, _⟩; exact absurd hb h
  · rw [if_neg hb]
    have key : ({ mkElem P O F M A with op := op, arg := arg } : RawElem) =
        mkElem P O F M (A ++ [(op, arg)]) := by
      simp only [mkElem, lastOr_snoc]
    rw [key]
    constructor
    · intro h; cases h; exact ⟨hb, rfl⟩
    · rintro ⟨_, rfl⟩; rfl

theorem miss_mk {P : List (Nat × Int)} {O F M : List Int} {A : List (Int × Int)} {er : Int}
    (e' : RawElem) :
    BStm.missElem er (mkElem P O F M A) = .ok e' ↔
      ¬ lastOr (-1) M ≠ -1 ∧ e' = mkElem P O F (M ++ [er]) A := by
  unfold BStm.missElem
  by_cases hb : (mkElem P O F M A).miss ≠ -1
  · rw [if_pos hb]
    constructor
    · intro h; cases h
    · intro ⟨h, _⟩; exact absurd hb h
  · rw [if_neg hb]
    have key : ({ mkElem P O F M A with miss := er } : RawElem) =
        mkElem P O F (M ++ [er]) A := by
      simp only [mkElem, lastOr_snoc]
    rw [key]
    constructor
    · intro h; cases h; exact ⟨hb, rfl⟩
    · rintro ⟨_, rfl⟩; rfl

theorem fallback_mk {P : List (Nat × Int)} {O F M : List Int} {A : List (Int × Int)} {st : Int}
    (e' : RawElem) :
    BStm.fallbackElem st (mkElem P O F M A) = .ok e' ↔
      (¬ lastOr (-1) F ≠ -1 ∧ 0 ≤ st ∧ st ≤ 64) ∧ e' = mkElem P O (F ++ [st]) M A := by
  unfold BStm.fallbackElem
  by_cases hb : (mkElem P O F M A).fallback ≠ -1
  · rw [if_pos hb]
    constructor
    · intro h; cases h
    · intro ⟨⟨h, _⟩, _⟩; exact absurd hb h
  · rw [if_neg hb]
    by_cases hs : st < 0 ∨ 64 < st
    · rw [if_pos hs]
      constructor
      · intro h; cases h
      · intro ⟨⟨_, h⟩, _⟩; omega
    · rw [if_neg hs]
      have key : ({ mkElem P O F M A with fallback := st } : RawElem) =
          mkElem P O (F ++ [st]) M A := by
        simp only [mkElem, lastOr_snoc]
      rw [key]
      constructor
      · intro h; cases h; exact ⟨⟨hb, by omega⟩, rfl⟩
      · rintro ⟨_, rfl⟩; rfl

/-- A call on the element of state `i`. -/
def upd (i : Nat) : BCall → RawElem → Except Cause RawElem
  | .state _, _ => .error .Unknown
  | .tr c more ns, e => trs (c :: more) ns e
  | .self c, e => trs [c] i e
  | .action op arg, e => BStm.actionElem op arg e
  | .miss er, e => BStm.missElem er e
  | .fallback st, e => BStm.fallbackElem st e
  | .other ns, e => BStm.otherElem ns e

theorem Fine.pos {i : Nat} {b : List BCall} (h : Fine i b) :
    Pos (b.flatMap (pairs i)) (b.filterMap others) := by
  constructor
  · intro p hp
    obtain ⟨d, hd, hm⟩ := List.mem_flatMap.1 hp
    exact ((h.1 d hd).2.1 p hm).2.1
  · intro t ht
    obtain ⟨d, hd, hm⟩ := List.mem_filterMap.1 ht
    exact ((h.1 d hd).2.2.2.1 t hm).1

theorem fine_snoc {i : Nat} {b : List BCall} {d : BCall} :
    Fine i (b ++ [d]) ↔ Fine i b ∧ Okay i d ∧ ∀ x ∈ b, Behind i x d := by
  unfold Fine
  rw [List.pairwise_append]
  constructor
  · intro ⟨h1, h2, _, h3⟩
    exact ⟨⟨fun x hx => h1 x (List.mem_append_left _ hx), h2⟩, h1 d (by simp),
      fun x hx => h3 x hx d (by simp)⟩
  · intro ⟨⟨h1, h2⟩, h3, h4⟩
    refine ⟨?_, h2, List.pairwise_singleton _ _, ?_⟩
    · intro x hx
      rcases List.mem_append.1 hx with hx | hx
      · exact h1 x hx
      · simp at hx; subst hx; exact h3
    · intro x hx y hy
      simp at hy; subst hy; exact h4 x hx

theorem last_free {α : Type} {f : BCall → Option α} {b : List BCall} {n : α} {bad : α → Prop}
    (hn : ¬ bad n)
    (hp : b.Pairwise fun d d' => ∀ a, f d = some a → bad a → f d' = none) :
    ¬ bad (lastOr n (b.filterMap f)) ↔ ∀ x ∈ b, ∀ a, f x = some a → ¬ bad a := by
  have hL : (b.filterMap f).Pairwise fun a _ => ¬ bad a := by
    rw [List.pairwise_filterMap]
    exact hp.imp fun h a ha a' ha' hb => by rw [h a ha hb] at ha'; cases ha'
  have hm : (∀ x ∈ b, ∀ a, f x = some a → ¬ bad a) ↔ ∀ a ∈ b.filterMap f, ¬ bad a := by
    constructor
    · intro h a ha
      obtain ⟨x, hx, hxa⟩ := List.mem_filterMap.1 ha
      exact h x hx a hxa
    · intro h x hx a ha
      exact h a (List.mem_filterMap.2 ⟨x, hx, ha⟩)
  rw [hm]
  generalize b.filterMap f = L at hL
  rcases List.eq_nil_or_concat L with rfl | ⟨L, a, rfl⟩
  · simp [lastOr, hn]
  · rw [List.concat_eq_append] at hL ⊢
    rw [lastOr_snoc]
    have h3 := (List.pairwise_append.1 hL).2.2
    constructor
    · intro h x hx
      rcases List.mem_append.1 hx with hx | hx
      · exact h3 x hx a (by simp)
      · simp at hx; subst hx; exact h
    · intro h; exact h a (by simp)

/-- What a call does to the element that a block describes. -/
theorem upd_iff {i : Nat} (hi : i < 64) {b : List BCall} (h : Fine i b) (d : BCall) (e' : RawElem) :
    upd i d (elemOf i b) = .ok e' ↔
      (Okay i d ∧ ∀ x ∈ b, Behind i x d) ∧ e' = elemOf i (b ++ [d]) := by
  have hp := h.pos
  have hpw : ∀ {R : BCall → BCall → Prop}, (∀ x y, Behind i x y → R x y) → b.Pairwise R :=
    fun hr => h.2.imp fun {x y} hxy => hr x y hxy
  rw [elemOf_mk, elemOf_mk]
  cases d with
  | state idx =>
    constructor
    · intro h; cases h
    · intro ⟨⟨h, _⟩, _⟩; exact absurd rfl (h.1 idx)
  | tr c more ns =>
    simp only [upd, List.flatMap_append, List.filterMap_append]
    rw [trs_mk e' hp]
    have hO : b.filterMap others = [] ↔ ∀ x ∈ b, others x = none := by
      rw [List.filterMap_eq_nil_iff]
    apply and_congr
    · constructor
      · intro ⟨h1, h2⟩
        refine ⟨⟨by simp, ?_, ?_, by simp [others], by simp [fallbacks]⟩, ?_⟩
        · intro p hpm
          simp only [pairs, List.mem_map] at hpm
          obtain ⟨x, hx, rfl⟩ := hpm
          exact ⟨(h1 x hx).1, (h1 x hx).2.1, (h1 x hx).2.2.1⟩
        · simp only [pairs, List.map_map, Function.comp_def, List.map_id']; exact h2
        · intro x hx
          refine ⟨?_, ?_, by simp [actions], by simp [misses], by simp [fallbacks]⟩
          · intro p hpm p' hp'
            simp only [pairs, List.mem_map] at hp'
            obtain ⟨y, hy, rfl⟩ := hp'
            exact (h1 y hy).2.2.2.2 p (List.mem_flatMap.2 ⟨x, hx, hpm⟩)
          · intro ho
            exact absurd (hO.1 (h1 c (by simp)).2.2.2.1 x hx) ho
      · intro ⟨h1, h2⟩
        refine ⟨?_, ?_⟩
        · intro y hy
          have hm : (y, ns) ∈ pairs i (.tr c more ns) := List.mem_map.2 ⟨y, hy, rfl⟩
          obtain ⟨k1, k2, k3⟩ := h1.2.1 _ hm
          refine ⟨k1, k2, k3, hO.2 fun x hx => ?_, ?_⟩
          · cases ho : others x with
            | none => rfl
            | some t =>
              have := (h2 x hx).2.1 (by simp [ho])
              rw [this] at hm; cases hm
          · intro p hpm
            obtain ⟨x, hx, hpx⟩ := List.mem_flatMap.1 hpm
            exact (h2 x hx).1 p hpx _ hm
        · have := h1.2.2.1
          simpa only [pairs, List.map_map, Function.comp_def, List.map_id'] using this
    · rw [show [BCall.tr c more ns].flatMap (pairs i) = (c :: more).map (·, ns) from by simp [pairs],
        show [BCall.tr c more ns].filterMap others = [] from rfl,
        show [BCall.tr c more ns].filterMap fallbacks = [] from rfl,
        show [BCall.tr c more ns].filterMap misses = [] from rfl,
        show [BCall.tr c more ns].filterMap actions = [] from rfl]
      simp only [List.append_nil]
  | self c =>
    simp only [upd, List.flatMap_append, List.filterMap_append]
    rw [trs_mk e' hp]
    have hO : b.filterMap others = [] ↔ ∀ x ∈ b, others x = none := by
      rw [List.filterMap_eq_nil_iff]
    apply and_congr
    · constructor
      · intro ⟨h1, _⟩
        obtain ⟨k1, k2, k3, k4, k5⟩ := h1 c (by simp)
        refine ⟨⟨by simp, ?_, by simp [pairs], by simp [others], by simp [fallbacks]⟩, ?_⟩
        · intro p hpm
          simp only [pairs, List.mem_singleton] at hpm
          subst hpm; exact ⟨k1, k2, k3⟩
        · intro x hx
          refine ⟨?_, ?_, by simp [actions], by simp [misses], by simp [fallbacks]⟩
          · intro p hpm p' hp'
            simp only [pairs, List.mem_singleton] at hp'
            subst hp'
            exact k5 p (List.mem_flatMap.2 ⟨x, hx, hpm⟩)
          · intro ho
            exact absurd (hO.1 k4 x hx) ho
      · intro ⟨h1, h2⟩
        refine ⟨?_, by simp⟩
        intro y hy
        simp only [List.mem_singleton] at hy
        subst hy
        have hm : (y, (i : Int)) ∈ pairs i (.self y) := by simp [pairs]
        obtain ⟨k1, k2, k3⟩ := h1.2.1 _ hm
        refine ⟨k1, k2, k3, hO.2 fun x hx => ?_, ?_⟩
        · cases ho : others x with
          | none => rfl
          | some t =>
            have := (h2 x hx).2.1 (by simp [ho])
            rw [this] at hm; cases hm
        · intro p hpm
          obtain ⟨x, hx, hpx⟩ := List.mem_flatMap.1 hpm
          exact (h2 x hx).1 p hpx _ hm
    · rw [show [BCall.self c].flatMap (pairs i) = [(c, (i : Int))] from by simp [pairs],
        show [BCall.self c].filterMap others = [] from rfl,
        show [BCall.self c].filterMap fallbacks = [] from rfl,
        show [BCall.self c].filterMap misses = [] from rfl,
        show [BCall.self c].filterMap actions = [] from rfl]
      simp only [List.append_nil, List.map_cons, List.map_nil]
  | action op arg =>
    have hl := last_free (f := actions) (b := b) (n := (-1, 0)) (bad := fun a => a.1 ≠ -1)
      (by simp) (hpw fun x y hxy => hxy.2.2.1)
    have hk : (Okay i (.action op arg) ∧ ∀ x ∈ b, Behind i x (.action op arg)) ↔
        ∀ x ∈ b, ∀ a, actions x = some a → ¬ a.1 ≠ -1 := by
      simp [Okay, Behind, pairs, others, fallbacks, misses, actions]
    rw [hk, ← hl]
    simp only [upd, List.flatMap_append, List.filterMap_append]
    rw [action_mk]
    apply and_congr Iff.rfl
    · rw [show [BCall.action op arg].flatMap (pairs i) = [] from by simp [pairs],
        show [BCall.action op arg].filterMap others = [] from rfl,
        show [BCall.action op arg].filterMap fallbacks = [] from rfl,
        show [BCall.action op arg].filterMap misses = [] from rfl,
        show [BCall.action op arg].filterMap actions = [(op, arg)] from rfl]
      simp only [List.append_nil]
  | miss er =>
    have hl := last_free (f := misses) (b := b) (n := (-1)) (bad := fun a => a ≠ -1)
      (by simp) (hpw fun x y hxy => hxy.2.2.2.1)
    have hk : (Okay i (.miss er) ∧ ∀ x ∈ b, Behind i x (.miss er)) ↔
        ∀ x ∈ b, ∀ a, misses x = some a → ¬ a ≠ -1 := by
      simp [Okay, Behind, pairs, others, fallbacks, misses, actions]
    rw [hk, ← hl]
    simp only [upd, List.flatMap_append, List.filterMap_append]
    rw [miss_mk]
    apply and_congr Iff.rfl
    · rw [show [BCall.miss er].flatMap (pairs i) = [] from by simp [pairs],
        show [BCall.miss er].filterMap others = [] from rfl,
        show [BCall.miss er].filterMap fallbacks = [] from rfl,
        show [BCall.miss er].filterMap misses = [er] from rfl,
        show [BCall.miss er].filterMap actions = [] from rfl]
      simp only [List.append_nil]
  | fallback st =>
    have hl := last_free (f := fallbacks) (b := b) (n := (-1)) (bad := fun a => a ≠ -1)
      (by simp) (hpw fun x y hxy a ha _ => hxy.2.2.2.2 (by simp [ha]))
    have hk : (Okay i (.fallback st) ∧ ∀ x ∈ b, Behind i x (.fallback st)) ↔
        (∀ x ∈ b, ∀ a, fallbacks x = some a → ¬ a ≠ -1) ∧ 0 ≤ st ∧ st ≤ 64 := by
      constructor
      · intro ⟨h1, h2⟩
        refine ⟨fun x hx a ha => ?_, h1.2.2.2.2 st rfl⟩
        have := (h2 x hx).2.2.2.2 (by simp [ha])
        simp [fallbacks] at this
      · intro ⟨h1, h2⟩
        refine ⟨⟨by simp, by simp [pairs], by simp [pairs], by simp [others], ?_⟩, ?_⟩
        · intro t ht; simp [fallbacks] at ht; subst ht; exact h2
        · intro x hx
          refine ⟨by simp [pairs], by simp [pairs], by simp [actions], by simp [misses], ?_⟩
          intro hf
          cases hfx : fallbacks x with
          | none => exact absurd hfx hf
          | some t =>
            have h3 := h1 x hx t hfx
            have h4 := (h.1 x hx).2.2.2.2 t hfx
            omega
    rw [hk, ← hl]
    simp only [upd, List.flatMap_append, List.filterMap_append]
    rw [fallback_mk]
    apply and_congr Iff.rfl
    · rw [show [BCall.fallback st].flatMap (pairs i) = [] from by simp [pairs],
        show [BCall.fallback st].filterMap others = [] from rfl,
        show [BCall.fallback st].filterMap fallbacks = [st] from rfl,
        show [BCall.fallback st].filterMap misses = [] from rfl,
        show [BCall.fallback st].filterMap actions = [] from rfl]
      simp only [List.append_nil]
  | other ns =>
    simp only [upd, List.flatMap_append, List.filterMap_append]
    rw [other_mk hp]
    apply and_congr
    · constructor
      · intro h1
        refine ⟨⟨by simp, by simp [pairs], by simp [pairs], ?_, by simp [fallbacks]⟩, ?_⟩
        · intro t ht; simp [others] at ht; subst ht; exact h1
        · intro x hx
          exact ⟨by simp [pairs], by simp [pairs], by simp [actions], by simp [misses],
            by simp [fallbacks]⟩
      · intro ⟨h1, _⟩
        exact h1.2.2.2.1 ns rfl
    · rw [show [BCall.other ns].flatMap (pairs i) = [] from by simp [pairs],
        show [BCall.other ns].filterMap others = [ns] from rfl,
        show [BCall.other ns].filterMap fallbacks = [] from rfl,
        show [BCall.other ns].filterMap misses = [] from rfl,
        show [BCall.other ns].filterMap actions = [] from rfl]
      simp only [List.append_nil]

/-! ## The exceptions -/

theorem trs_error {O F M : List Int} {A : List (Int × Int)} {ns : Int} {x : Cause} :
    ∀ {cs : List Nat} {P : List (Nat × Int)}, Pos P O →
    trs cs ns (mkElem P O F M A) = .error x →
      (x = .InvalidParamChar ∧ ∃ c ∈ cs, 18 ≤ c) ∨
      (x = .InvalidParamState ∧ cs ≠ [] ∧ (ns < 0 ∨ 64 < ns)) ∨
      (x = .DuplicateStateTransition ∧
        (¬ cs.Nodup ∨ ∃ c ∈ cs, O ≠ [] ∨ ∃ p ∈ P, p.1 = c)) := by
  intro cs
  induction cs with
  | nil => intro P _ h; cases h
  | cons c cs ih =>
    intro P hp h
    rw [trs] at h
    split at h
    · rename_i y h1
      cases h
      unfold BStm.trElem at h1
      by_cases hc : 18 ≤ c
      · rw [if_pos hc] at h1
        cases h1
        exact .inl ⟨rfl, c, by simp, hc⟩
      · rw [if_neg hc] at h1
        by_cases hn : ns < 0 ∨ 64 < ns
        · rw [if_pos hn] at h1
          cases h1
          exact .inr (.inl ⟨rfl, by simp, hn⟩)
        · rw [if_neg hn] at h1
          by_cases hx : (mkElem P O F M A).next[c]? ≠ some (-1)
          · rw [if_pos hx] at h1
            cases h1
            refine .inr (.inr ⟨rfl, .inr ⟨c, by simp, ?_⟩⟩)
            by_cases hO : O = []
            · refine .inr (Decidable.byContradiction fun hne => hx ?_)
              refine (next_free (by omega) hp).2 ⟨hO, fun p hp e => hne ⟨p, hp, e⟩⟩
            · exact .inl hO
          · rw [if_neg hx] at h1
            cases h1
    · rename_i e1 h1
      obtain ⟨⟨g1, g2, g3, g4, g5⟩, rfl⟩ := (tr_mk hp e1).1 h1
      have hp' : Pos (P ++ [(c, ns)]) O := ⟨by
        intro p hm
        rcases List.mem_append.1 hm with hm | hm
        · exact hp.1 p hm
        · simp at hm; subst hm; exact g2, hp.2⟩
      rcases ih hp' h with ⟨e, y, hy, h2⟩ | ⟨e, h2⟩ | ⟨e, h2⟩
      · exact .inl ⟨e, y, List.mem_cons_of_mem _ hy, h2⟩
      · exact .inr (.inl ⟨e, by simp, h2.2⟩)
      · refine .inr (.inr ⟨e, ?_⟩)
        rcases h2 with h2 | ⟨y, hy, h2⟩
        · exact .inl fun hd => h2 (List.nodup_cons.1 hd).2
        · rcases h2 with h2 | ⟨p, hp2, h3⟩
          · exact .inr ⟨y, List.mem_cons_of_mem _ hy, .inl h2⟩
          · rcases List.mem_append.1 hp2 with hp2 | hp2
            · exact .inr ⟨y, List.mem_cons_of_mem _ hy, .inr ⟨p, hp2, h3⟩⟩
            · simp at hp2; subst hp2
              simp at h3; subst h3
              exact .inl fun hd => (List.nodup_cons.1 hd).1 hy

theorem upd_error {i : Nat} {b : List BCall} (h : Fine i b) {d : BCall}
    (hd : ∀ idx, d ≠ .state idx) {x : Cause} (he : upd i d (elemOf i b) = .error x) :
    Reason i b d x := by
  have hp := h.pos
  have hO : b.filterMap others ≠ [] → ∃ x ∈ b, others x ≠ none := by
    intro hne
    refine Decidable.byContradiction fun hno => hne ?_
    rw [List.filterMap_eq_nil_iff]
    intro x hx
    exact Decidable.byContradiction fun hx2 => hno ⟨x, hx, hx2⟩
  have htr : ∀ (cs : List Nat) (ns : Int), pairs i d = cs.map (·, ns) →
      trs cs ns (elemOf i b) = .error x → Reason i b d x := by
    intro cs ns hpd ht
    rw [elemOf_mk] at ht
    rcases trs_error hp ht with ⟨rfl, c, hc, h2⟩ | ⟨rfl, hne, h2⟩ | ⟨rfl, h2⟩
    · exact ⟨(c, ns), by rw [hpd]; exact List.mem_map.2 ⟨c, hc, rfl⟩, h2⟩
    · refine ⟨ns, .inl ?_, h2⟩
      rw [hpd]
      cases cs with
      | nil => exact absurd rfl hne
      | cons c cs => simp
    · show _ ∨ _
      rcases h2 with h2 | ⟨c, hc, h2⟩
      · left; rw [hpd, List.map_map]
        simp only [Function.comp_def, List.map_id']; exact h2
      · right
        refine ⟨(c, ns), by rw [hpd]; exact List.mem_map.2 ⟨c, hc, rfl⟩, ?_⟩
        rcases h2 with h2 | ⟨p, hp2, h3⟩
        · obtain ⟨y, hy, h4⟩ := hO h2
          exact ⟨y, hy, .inl h4⟩
        · obtain ⟨y, hy, h4⟩ := List.mem_flatMap.1 hp2
          exact ⟨y, hy, .inr ⟨p, h4, h3⟩⟩
  cases d with
  | state idx => exact absurd rfl (hd idx)
  | tr c more ns => exact htr (c :: more) ns rfl he
  | self c => exact htr [c] i rfl he
  | action op arg =>
    simp only [upd, BStm.actionElem] at he
    split at he
    · rename_i hb
      cases he
      refine .inl ⟨by simp [actions], ?_⟩
      refine Decidable.byContradiction fun hno => ?_
      have hl := last_free (f := actions) (b := b) (n := (-1, 0)) (bad := fun a => a.1 ≠ -1)
        (by simp) (h.2.imp fun {x y} hxy => hxy.2.2.1)
      exact hl.2 (fun x hx a ha hba => hno ⟨x, hx, a, ha, hba⟩) hb
    · cases he
  | miss er =>
    simp only [upd, BStm.missElem] at he
    split at he
    · rename_i hb
      cases he
      refine .inr (.inl ⟨by simp [misses], ?_⟩)
      refine Decidable.byContradiction fun hno => ?_
      have hl := last_free (f := misses) (b := b) (n := (-1)) (bad := fun a => a ≠ -1)
        (by simp) (h.2.imp fun {x y} hxy => hxy.2.2.2.1)
      exact hl.2 (fun x hx a ha hba => hno ⟨x, hx, a, ha, hba⟩) hb
    · cases he
  | fallback st =>
    simp only [upd, BStm.fallbackElem] at he
    split at he
    · rename_i hb
      cases he
      refine .inr (.inr ⟨by simp [fallbacks], ?_⟩)
      refine Decidable.byContradiction fun hno => ?_
      have hl := last_free (f := fallbacks) (b := b) (n := (-1)) (bad := fun a => a ≠ -1)
        (by simp) (h.2.imp fun {x y} hxy a ha _ => hxy.2.2.2.2 (by simp [ha]))
      exact hl.2 (fun x hx a ha _ => hno ⟨x, hx, by simp [ha]⟩) hb
    · split at he
      · rename_i hs
        cases he
        exact ⟨st, .inr (.inr rfl), hs⟩
      · cases he
  | other ns =>
    simp only [upd, BStm.otherElem] at he
    split at he
    · rename_i hs
      cases he
      exact ⟨ns, .inr (.inl rfl), hs⟩
    · cases he

/-! ## The table -/

theorem onLast_at {f : RawElem → Except Cause RawElem} (pre : List RawElem) (e : RawElem)
    (post : List RawElem) :
    BStm.onLast f ⟨pre ++ e :: post, pre.length + 1⟩ =
      match f e with
      | .error c => (.stop (.throw c), ⟨pre ++ e :: post, pre.length + 1⟩)
      | .ok e' => (.ok (), ⟨pre ++ e' :: post, pre.length + 1⟩) := by
  unfold BStm.onLast
  simp only [Nat.add_one_ne_zero, if_false, Nat.add_sub_cancel]
  rw [List.getElem?_append_right (Nat.le_refl _), Nat.sub_self, List.getElem?_cons_zero]
  simp only
  cases f e with
  | error c => rfl
  | ok e' =>
    simp only [List.set_append_right _ _ (Nat.le_refl _), Nat.sub_self, List.set_cons_zero]

theorem trs_at (cs : List Nat) (ns : Int) (pre post : List RawElem) : ∀ e : RawElem,
    (∀ e', trs cs ns e = .ok e' →
      BStm.addTransitions cs ns ⟨pre ++ e :: post, pre.length + 1⟩ =
        (.ok (), ⟨pre ++ e' :: post, pre.length + 1⟩)) ∧
    (∀ c, trs cs ns e = .error c →
      ∃ s', BStm.addTransitions cs ns ⟨pre ++ e :: post, pre.length + 1⟩ =
        (.stop (.throw c), s')) := by
  induction cs with
  | nil =>
    intro e
    constructor
    · intro e' h; cases h; rfl
    · intro c h; cases h
  | cons c cs ih =>
    intro e
    have h0 := onLast_at (f := BStm.trElem c ns) pre e post
    rw [trs]
    cases ht : BStm.trElem c ns e with
    | error x =>
      rw [ht] at h0
      constructor
      · intro e' h; cases h
      · intro y h
        cases h
        refine ⟨⟨pre ++ e :: post, pre.length + 1⟩, ?_⟩
        show M.bind _ _ _ = _
        unfold M.bind BStm.addTransition
        rw [h0]
    | ok e1 =>
      rw [ht] at h0
      have hb : BStm.addTransitions (c :: cs) ns ⟨pre ++ e :: post, pre.length + 1⟩ =
          BStm.addTransitions cs ns ⟨pre ++ e1 :: post, pre.length + 1⟩ := by
        show M.bind _ _ _ = _
        unfold M.bind BStm.addTransition
        rw [h0]
      rw [hb]
      exact ih e1

theorem exec_at {d : BCall} (hd : ∀ idx, d ≠ .state idx) (pre post : List RawElem) (e : RawElem) :
    (∀ e', upd pre.length d e = .ok e' →
      BStm.exec d ⟨pre ++ e :: post, pre.length + 1⟩ =
        (.ok (), ⟨pre ++ e' :: post, pre.length + 1⟩)) ∧
    (∀ c, upd pre.length d e = .error c →
      ∃ s', BStm.exec d ⟨pre ++ e :: post, pre.length + 1⟩ = (.stop (.throw c), s')) := by
  have hl : ∀ f : RawElem → Except Cause RawElem,
      (∀ e', f e = .ok e' → BStm.onLast f ⟨pre ++ e :: post, pre.length + 1⟩ =
        (.ok (), ⟨pre ++ e' :: post, pre.length + 1⟩)) ∧
      (∀ c, f e = .error c →
        ∃ s', BStm.onLast f ⟨pre ++ e :: post, pre.length + 1⟩ = (.stop (.throw c), s')) := by
    intro f
    rw [onLast_at]
    constructor
    · intro e' h; rw [h]
    · intro c h; rw [h]; exact ⟨_, rfl⟩
  cases d with
  | state idx => exact absurd rfl (hd idx)
  | tr c more ns => exact trs_at (c :: more) ns pre post e
  | self c =>
    have h := trs_at [c] pre.length pre post e
    have hx : BStm.exec (.self c) ⟨pre ++ e :: post, pre.length + 1⟩ =
        BStm.addTransitions [c] pre.length ⟨pre ++ e :: post, pre.length + 1⟩ := by
      have : ((pre.length + 1 : Nat) : Int) - 1 = pre.length := by omega
      show BStm.addTransition c (((pre.length + 1 : Nat) : Int) - 1) _ = M.bind _ _ _
      rw [this]
      unfold M.bind
      generalize BStm.addTransition c _ _ = r
      obtain ⟨r, s⟩ := r
      cases r <;> rfl
    rw [hx]
    exact h
  | action op arg => exact hl _
  | miss er => exact hl _
  | fallback st => exact hl _
  | other ns => exact hl _

theorem run_cons (d : BCall) (ds : List BCall) (s : BStm) :
    BStm.run (d :: ds) s = match BStm.exec d s with
      | (.ok _, s') => BStm.run ds s'
      | (.stop e, s') => (.stop e, s') := by
  show M.bind _ _ _ = _
  unfold M.bind
  obtain ⟨⟨r, s'⟩, h⟩ : ∃ x, BStm.exec d s = x := ⟨_, rfl⟩
  rw [h]
  cases r <;> rfl

/-- No call that begins a state. -/
def NoState (b : List BCall) : Prop := ∀ d ∈ b, ∀ idx, d ≠ .state idx

theorem Fine.noState {i : Nat} {b : List BCall} (h : Fine i b) : NoState b :=
  fun d hd => (h.1 d hd).1

theorem fine_left {i : Nat} {b b' : List BCall} (h : Fine i (b ++ b')) : Fine i b :=
  ⟨fun d hd => h.1 d (List.mem_append_left _ hd), (List.pairwise_append.1 h.2).1⟩

theorem block_run (pre post : List RawElem) (hi : pre.length < 64) (s : BStm) (rest : List BCall) :
    ∀ b' : List BCall, NoState b' → ∀ b, Fine pre.length b →
    (BStm.run (b' ++ rest) ⟨pre ++ elemOf pre.length b :: post, pre.length + 1⟩ = (.ok (), s) ↔
      Fine pre.length (b ++ b') ∧
        BStm.run rest ⟨pre ++ elemOf pre.length (b ++ b') :: post, pre.length + 1⟩ = (.ok (), s)) := by
  intro b'
  induction b' with
  | nil =>
    intro _ b hb
    rw [List.append_nil, List.nil_append]
    exact ⟨fun h => ⟨hb, h⟩, fun h => h.2⟩
  | cons d b' ih =>
    intro hn b hb
    have hd := hn d (by simp)
    have hn' : NoState b' := fun x hx => hn x (List.mem_cons_of_mem _ hx)
    have hx := exec_at hd pre post (elemOf pre.length b)
    rw [List.cons_append, run_cons]
    have happ : b ++ d :: b' = (b ++ [d]) ++ b' := by simp
    cases hu : upd pre.length d (elemOf pre.length b) with
    | error c =>
      obtain ⟨s', hs⟩ := hx.2 c hu
      rw [hs]
      constructor
      · intro h; cases h
      · intro ⟨h, _⟩
        rw [happ] at h
        have hf := fine_snoc.1 (fine_left h)
        have := (upd_iff hi hb d _).2 ⟨hf.2, rfl⟩
        rw [hu] at this; cases this
    | ok e' =>
      rw [hx.1 e' hu]
      obtain ⟨hf, rfl⟩ := (upd_iff hi hb d e').1 hu
      rw [happ]
      exact ih hn' (b ++ [d]) (fine_snoc.2 ⟨hb, hf⟩)

theorem elemOf_nil (i : Nat) : elemOf i [] = blank := rfl

theorem fine_nil (i : Nat) : Fine i [] := ⟨by simp, List.Pairwise.nil⟩

theorem layout_run (s : BStm) : ∀ (bs : List (Int × List BCall)), (∀ b ∈ bs, NoState b.2) →
    ∀ (pre : List RawElem) (n : Nat), pre.length + n = 64 →
    (BStm.run (layout bs) ⟨pre ++ List.replicate n blank, pre.length⟩ = (.ok (), s) ↔
      Blocks pre.length bs ∧ bs.length ≤ n ∧
        s = ⟨pre ++ (elems pre.length bs ++ List.replicate (n - bs.length) blank),
          pre.length + bs.length⟩) := by
  intro bs
  induction bs with
  | nil =>
    intro _ pre n hn
    simp only [layout, Blocks, elems, List.length_nil, List.nil_append, Nat.sub_zero, Nat.add_zero,
      true_and, Nat.zero_le]
    constructor
    · intro h
      have : (Res.ok (), (⟨pre ++ List.replicate n blank, pre.length⟩ : BStm)) = (.ok (), s) := h
      exact (Prod.mk.inj this).2.symm
    · rintro rfl; rfl
  | cons x bs ih =>
    obtain ⟨idx, b⟩ := x
    intro hns pre n hn
    have hb := hns (idx, b) (by simp)
    have hns' : ∀ b ∈ bs, NoState b.2 := fun y hy => hns y (List.mem_cons_of_mem _ hy)
    rw [layout, run_cons]
    by_cases h1 : ((pre.length : Nat) : Int) ≠ idx % 2 ^ 32
    · have : BStm.exec (.state idx) ⟨pre ++ List.replicate n blank, pre.length⟩ =
          (.stop (.throw .StateNumbersNotAscending), ⟨pre ++ List.replicate n blank, pre.length⟩) := by
        show BStm.newState idx _ = _
        unfold BStm.newState
        simp only [if_pos h1]
      rw [this]
      constructor
      · intro h; cases h
      · intro ⟨h, _⟩; exact absurd h.1.symm h1
    · cases n with
      | zero =>
        have : BStm.exec (.state idx) ⟨pre ++ List.replicate 0 blank, pre.length⟩ =
            (.stop (.throw .DimOutOfRange), ⟨pre ++ List.replicate 0 blank, pre.length⟩) := by
          show BStm.newState idx _ = _
          unfold BStm.newState
          simp only [if_neg h1, if_pos (show 64 ≤ pre.length by omega)]
        rw [this]
        constructor
        · intro h; cases h
        · intro ⟨_, h, _⟩; simp at h
      | succ n =>
        have : BStm.exec (.state idx) ⟨pre ++ List.replicate (n + 1) blank, pre.length⟩ =
            (.ok (), ⟨pre ++ elemOf pre.length [] :: List.replicate n blank, pre.length + 1⟩) := by
          show BStm.newState idx _ = _
          unfold BStm.newState
          simp only [if_neg h1, if_neg (show ¬ 64 ≤ pre.length by omega)]
          rfl
        rw [this]
        simp only
        rw [block_run pre _ (by omega) s _ b hb [] (fine_nil _), List.nil_append]
        have hpre : pre ++ elemOf pre.length b :: List.replicate n blank =
            (pre ++ [elemOf pre.length b]) ++ List.replicate n blank := by simp
        have hlen : (pre ++ [elemOf pre.length b]).length = pre.length + 1 := by simp
        have ih' := ih hns' (pre ++ [elemOf pre.length b]) n (by rw [hlen]; omega)
        rw [hlen] at ih'
        rw [hpre, ih']
        simp only [Blocks, elems, List.length_cons, Nat.add_le_add_iff_right, Nat.add_sub_add_right,
          List.append_assoc, List.cons_append, List.nil_append]
        have hadd : pre.length + 1 + bs.length = pre.length + (bs.length + 1) := by omega
        rw [hadd]
        have h1' : idx % 2 ^ 32 = (pre.length : Int) := by
          have := Decidable.not_not.1 h1; exact this.symm
        constructor
        · rintro ⟨a, b, c, d⟩; exact ⟨⟨h1', a, b⟩, c, d⟩
        · rintro ⟨⟨_, a, b⟩, c, d⟩; exact ⟨a, b, c, d⟩

theorem Blocks.noState : ∀ {bs : List (Int × List BCall)} {k : Nat}, Blocks k bs →
    ∀ b ∈ bs, NoState b.2 := by
  intro bs
  induction bs with
  | nil => intro k _ b hb; cases hb
  | cons x bs ih =>
    obtain ⟨idx, b⟩ := x
    intro k h y hy
    rcases List.mem_cons.1 hy with rfl | hy
    · exact h.2.1.noState
    · exact ih h.2.2 y hy

theorem split_calls (cs : List BCall) :
    ∃ b0 bs, cs = b0 ++ layout bs ∧ NoState b0 ∧ ∀ b ∈ bs, NoState b.2 := by
  induction cs with
  | nil => exact ⟨[], [], rfl, (by intro d hd; cases hd), (by intro d hd; cases hd)⟩
  | cons d cs ih =>
    obtain ⟨b0, bs, rfl, h1, h2⟩ := ih
    by_cases hd : ∃ idx, d = .state idx
    · obtain ⟨idx, rfl⟩ := hd
      refine ⟨[], (idx, b0) :: bs, rfl, (by intro d hd; cases hd), ?_⟩
      intro b hb
      rcases List.mem_cons.1 hb with rfl | hb
      · exact h1
      · exact h2 b hb
    · refine ⟨d :: b0, bs, rfl, ?_, h2⟩
      intro x hx
      rcases List.mem_cons.1 hx with rfl | hx
      · intro idx h; exact hd ⟨idx, h⟩
      · exact h1 x hx

theorem exec_empty {d : BCall} (hd : ∀ idx, d ≠ .state idx) {s : BStm} (hs : s.size = 0) :
    BStm.exec d s = (.stop (.throw .InvalidState), s) := by
  have hl : ∀ f, BStm.onLast f s = (.stop (.throw .InvalidState), s) := by
    intro f; unfold BStm.onLast; rw [if_pos hs]
  cases d with
  | state idx => exact absurd rfl (hd idx)
  | tr c more ns =>
    show M.bind _ _ _ = _
    unfold M.bind BStm.addTransition
    rw [hl]
  | self c => exact hl _
  | action op arg => exact hl _
  | miss er => exact hl _
  | fallback st => exact hl _
  | other ns => exact hl _

theorem run_iff (cs : List BCall) (s : BStm) :
    BStm.run cs BStm.init = (.ok (), s) ↔
      ∃ bs, cs = layout bs ∧ Blocks 0 bs ∧ bs.length ≤ 64 ∧
        s = ⟨elems 0 bs ++ List.replicate (64 - bs.length) blank, bs.length⟩ := by
  constructor
  · intro h
    obtain ⟨b0, bs, rfl, h1, h2⟩ := split_calls cs
    cases b0 with
    | cons d b0 =>
      rw [List.cons_append, run_cons, exec_empty (h1 d (by simp)) rfl] at h
      cases h
    | nil =>
      have := (layout_run s bs h2 [] 64 rfl).1 h
      refine ⟨bs, rfl, this.1, this.2.1, ?_⟩
      have h3 := this.2.2
      simp only [List.length_nil, List.nil_append, Nat.zero_add] at h3
      exact h3
  · rintro ⟨bs, rfl, h1, h2, rfl⟩
    refine (layout_run _ bs h1.noState [] 64 rfl).2 ⟨h1, h2, ?_⟩
    simp

/-! ## Safety -/

/-- The array has its 64 elements and not more states than that. -/
def Held (s : BStm) : Prop := s.tab.length = 64 ∧ s.size ≤ 64

theorem onLast_held {f : RawElem → Except Cause RawElem} {s : BStm} (h : Held s) :
    (BStm.onLast f s).1 ≠ .stop .ub ∧ Held (BStm.onLast f s).2 := by
  unfold BStm.onLast
  by_cases h0 : s.size = 0
  · rw [if_pos h0]; exact ⟨by simp, h⟩
  · rw [if_neg h0]
    have hlt : s.size - 1 < s.tab.length := by have := h.1; have := h.2; omega
    rw [List.getElem?_eq_getElem hlt]
    simp only
    cases f s.tab[s.size - 1] with
    | error c => exact ⟨by simp, h⟩
    | ok e' => exact ⟨by simp, by simpa [Held] using h⟩

theorem addTransitions_held (cs : List Nat) (ns : Int) : ∀ {s : BStm}, Held s →
    (BStm.addTransitions cs ns s).1 ≠ .stop .ub ∧ Held (BStm.addTransitions cs ns s).2 := by
  induction cs with
  | nil => intro s h; exact ⟨(by intro hh; cases hh), h⟩
  | cons c cs ih =>
    intro s h
    have h1 := onLast_held (f := BStm.trElem c ns) h
    have : BStm.addTransitions (c :: cs) ns s = match BStm.onLast (BStm.trElem c ns) s with
        | (.ok _, s') => BStm.addTransitions cs ns s'
        | (.stop e, s') => (.stop e, s') := by
      show M.bind _ _ _ = _
      unfold M.bind BStm.addTransition
      obtain ⟨⟨r, s'⟩, h⟩ : ∃ x, BStm.onLast (BStm.trElem c ns) s = x := ⟨_, rfl⟩
      rw [h]
      cases r <;> rfl
    rw [this]
    generalize BStm.onLast (BStm.trElem c ns) s = r at h1
    obtain ⟨r, s'⟩ := r
    cases r with
    | ok a => exact ih h1.2
    | stop e => exact ⟨(by intro hh; cases hh; exact h1.1 rfl), h1.2⟩

theorem exec_held (d : BCall) {s : BStm} (h : Held s) :
    (BStm.exec d s).1 ≠ .stop .ub ∧ Held (BStm.exec d s).2 := by
  cases d with
  | state idx =>
    show (BStm.newState idx s).1 ≠ _ ∧ Held (BStm.newState idx s).2
    unfold BStm.newState
    by_cases h1 : (s.size : Int) ≠ idx % 2 ^ 32
    · rw [if_pos h1]; exact ⟨by simp, h⟩
    · rw [if_neg h1]
      by_cases h2 : 64 ≤ s.size
      · rw [if_pos h2]; exact ⟨by simp, h⟩
      · rw [if_neg h2]; exact ⟨by simp, h.1, by show s.size + 1 ≤ 64; omega⟩
  | tr c more ns => exact addTransitions_held _ _ h
  | self c => exact onLast_held h
  | action op arg => exact onLast_held h
  | miss er => exact onLast_held h
  | fallback st => exact onLast_held h
  | other ns => exact onLast_held h

theorem goOn_held (cs : List BCall) : ∀ {s : BStm}, Held s →
    (∀ r ∈ (BStm.goOn cs s).1, r ≠ .stop .ub) ∧ Held (BStm.goOn cs s).2 := by
  induction cs with
  | nil => intro s h; exact ⟨(by intro r hr; cases hr), h⟩
  | cons d cs ih =>
    intro s h
    have h1 := exec_held d h
    have h2 := ih h1.2
    refine ⟨?_, h2.2⟩
    intro r hr
    have hr' : r ∈ (BStm.exec d s).1 :: (BStm.goOn cs (BStm.exec d s).2).1 := hr
    rcases List.mem_cons.1 hr' with rfl | hr'
    · exact h1.1
    · exact h2.1 r hr'

theorem elems_length : ∀ (bs : List (Int × List BCall)) (k : Nat), (elems k bs).length = bs.length := by
  intro bs
  induction bs with
  | nil => intro k; rfl
  | cons x bs ih => intro k; obtain ⟨idx, b⟩ := x; simp [elems, ih]

theorem elems_get : ∀ (bs : List (Int × List BCall)) (k j : Nat) (b : Int × List BCall),
    bs[j]? = some b → (elems k bs)[j]? = some (elemOf (k + j) b.2) := by
  intro bs
  induction bs with
  | nil => intro k j b h; simp at h
  | cons x bs ih =>
    obtain ⟨idx, c⟩ := x
    intro k j b h
    cases j with
    | zero => simp at h; subst h; simp [elems]
    | succ j =>
      simp at h
      have := ih (k + 1) j b h
      simp only [elems, List.getElem?_cons_succ, this]
      rw [show k + 1 + j = k + (j + 1) by omega]

theorem elems_snoc : ∀ (bs : List (Int × List BCall)) (k : Nat) (idx : Int) (b : List BCall),
    elems k (bs ++ [(idx, b)]) = elems k bs ++ [elemOf (k + bs.length) b] := by
  intro bs
  induction bs with
  | nil => intro k idx b; rfl
  | cons x bs ih =>
    intro k idx b
    obtain ⟨y, c⟩ := x
    simp only [List.cons_append, elems, ih, List.length_cons]
    rw [show k + 1 + bs.length = k + (bs.length + 1) by omega]

theorem blocks_get : ∀ {bs : List (Int × List BCall)} {k j : Nat} {b : Int × List BCall},
    Blocks k bs → bs[j]? = some b → Fine (k + j) b.2 := by
  intro bs
  induction bs with
  | nil => intro k j b _ h; simp at h
  | cons x bs ih =>
    obtain ⟨idx, c⟩ := x
    intro k j b hb h
    cases j with
    | zero => simp at h; subst h; exact hb.2.1
    | succ j =>
      simp at h
      have := ih hb.2.2 h
      rw [show k + (j + 1) = k + 1 + j by omega]
      exact this

theorem blocks_snoc {bs : List (Int × List BCall)} {k : Nat} {idx : Int} {b : List BCall}
    (h : Blocks k (bs ++ [(idx, b)])) : Fine (k + bs.length) b :=
  blocks_get (b := (idx, b)) h (by simp)

theorem next_gives {i : Nat} {b : List BCall} {t : Int} (h : t ∈ (elemOf i b).next) (h1 : t ≠ -1) :
    Gives i b t := by
  obtain ⟨c, _, rfl⟩ := List.mem_map.1 h
  unfold target at h1 ⊢
  cases hl : (b.flatMap (pairs i)).lookup c with
  | some t =>
    obtain ⟨d, hd, hm⟩ := List.mem_flatMap.1 (lookup_mem hl)
    exact ⟨d, hd, .inl (List.mem_map.2 ⟨(c, t), hm, rfl⟩)⟩
  | none =>
    rw [hl] at h1
    simp only at h1 ⊢
    cases ho : b.filterMap others with
    | nil => rw [ho] at h1; exact absurd rfl h1
    | cons t O =>
      obtain ⟨d, hd, hm⟩ := List.mem_filterMap.1 (show t ∈ b.filterMap others by rw [ho]; simp)
      exact ⟨d, hd, .inr (.inl hm)⟩

theorem fallback_gives {i : Nat} {b : List BCall} {t : Int} (h : (elemOf i b).fallback = t)
    (h1 : t ≠ -1) : Gives i b t := by
  have h' : lastOr (-1) (b.filterMap fallbacks) = t := h
  rcases List.eq_nil_or_concat (b.filterMap fallbacks) with hn | ⟨L, a, hn⟩
  · rw [hn] at h'; exact absurd h'.symm h1
  · rw [hn, List.concat_eq_append, lastOr_snoc] at h'
    subst h'
    obtain ⟨d, hd, hm⟩ := List.mem_filterMap.1 (show a ∈ b.filterMap fallbacks by rw [hn]; simp)
    exact ⟨d, hd, .inr (.inr hm)⟩

theorem gives_pos {i : Nat} {b : List BCall} {t : Int} (h : Fine i b) (hg : Gives i b t) : 0 ≤ t := by
  obtain ⟨d, hd, hm⟩ := hg
  have ho := h.1 d hd
  rcases hm with hm | hm | hm
  · obtain ⟨p, hp, rfl⟩ := List.mem_map.1 hm
    exact (ho.2.1 p hp).2.1
  · exact (ho.2.2.2.1 t hm).1
  · exact (ho.2.2.2.2 t hm).1

end TW.Builder
