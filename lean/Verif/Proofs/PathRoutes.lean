import Verif.Proofs.PathItem

/-!
# The ways to match transitions are the ways to match steps
-/

namespace TW.Path

open Spec.Path (Step CStep Cond Open choices routes)

theorem sumBefore_add {α : Type} (f g : List α → α → Nat) (l : List α) :
    sumBefore (fun l a => f l a + g l a) l = sumBefore f l + sumBefore g l := by
  induction l generalizing f g with
  | nil => rfl
  | cons x p ih =>
    have h := ih (fun l b => f (x :: l) b) (fun l b => g (x :: l) b)
    show (f [] x + g [] x) + sumBefore (fun l b => f (x :: l) b + g (x :: l) b) p = (f [] x + sumBefore (fun l b => f (x :: l) b) p) +
      (g [] x + sumBefore (fun l b => g (x :: l) b) p)
    rw [h]
    omega

theorem choices_nil (as : List (List Byte × List Byte)) : choices [] as = 1 := by cases as <;> rfl

theorem sumBefore_zero {α : Type} (l : List α) : sumBefore (fun (_ : List α) (_ : α) => 0) l = 0 := by
  induction l with
  | nil => rfl
  | cons x p ih => simp only [sumBefore, ih]

theorem sumBefore_mul_left {α : Type} (f : List α → α → Nat) (c : Nat) (l : List α) :
    sumBefore (fun l a => c * f l a) l = c * sumBefore f l := by
  rw [Nat.mul_comm, ← sumBefore_mul]
  exact sumBefore_congr (fun _ _ => Nat.mul_comm ..) l

theorem choices_snoc (cs : List Cond) (c : Cond) (as : List (List Byte × List Byte)) :
    choices (cs ++ [c]) as = sumBefore (fun l a => if c.accepts a then choices cs l else 0) as := by
  induction cs generalizing as with
  | nil =>
    induction as with
    | nil => rfl
    | cons a as ih =>
      simp only [List.nil_append, choices_nil] at ih ⊢
      have : choices [c] (a :: as) = (if c.accepts a then choices [] as else 0) + choices [c] as := rfl
      rw [this, choices_nil]
      show (if c.accepts a then 1 else 0) + choices [c] as = (if c.accepts a then 1 else 0) +
        sumBefore (fun l b => if c.accepts b then 1 else 0) as
      rw [ih]
  | cons d ds ihd =>
    induction as with
    | nil => rfl
    | cons a as ih =>
      have h1 : choices (d :: ds ++ [c]) (a :: as) =
        (if d.accepts a then choices (ds ++ [c]) as else 0) + choices (d :: ds ++ [c]) as := rfl
      have h2 : sumBefore (fun l a => if c.accepts a then choices (d :: ds) l else 0) (a :: as) =
        (if c.accepts a then 0 else 0) + sumBefore (fun l b => if c.accepts b then
          (if d.accepts a then choices ds l else 0) + choices (d :: ds) l else 0) as := rfl
      rw [h1, h2, ihd, ih, ite_self, Nat.zero_add]
      have h3 : sumBefore (fun l b => if c.accepts b then
          (if d.accepts a then choices ds l else 0) + choices (d :: ds) l else 0) as =
          sumBefore (fun l b => (if d.accepts a then (if c.accepts b then choices ds l else 0) else 0) +
            (if c.accepts b then choices (d :: ds) l else 0)) as := by
        apply sumBefore_congr
        intro l b
        split <;> split <;> simp
      rw [h3, sumBefore_add]
      congr 1
      split
      · rfl
      · exact (sumBefore_zero as).symm

theorem routes_snoc (ss : List CStep) (s : CStep) (p : List Open) (x : Open) :
    routes (ss ++ [s]) (p ++ [x]) = if s.accepts x.name then
      choices s.conds x.attrs * (routes ss p + (if s.desc then sumBefore (fun l _ => routes ss l) p else 0)) else 0 := by
  induction ss generalizing p with
  | nil =>
    induction p with
    | nil =>
      simp only [List.nil_append, routes, sumBefore, ite_self, Nat.add_zero, Nat.mul_one]
    | cons m p ih =>
      have h0 : routes [] (p ++ [x]) = 0 := by cases p <;> rfl
      have h1 : routes ([] ++ [s]) (m :: p ++ [x]) = (if s.accepts m.name then choices s.conds m.attrs * routes [] (p ++ [x]) else 0) +
        (if s.desc then routes ([] ++ [s]) (p ++ [x]) else 0) := rfl
      have h2 : sumBefore (fun l _ => routes [] l) (m :: p) = 1 + sumBefore (fun _ _ => 0) p := rfl
      have h4 : ∀ l : List Open, sumBefore (fun l _ => routes [] l) l = if l = [] then 0 else 1 := by
        intro l
        cases l with
        | nil => rfl
        | cons y l =>
          show 1 + sumBefore (fun _ _ => 0) l = _
          rw [sumBefore_zero]
          rfl
      rw [h1, h0, ih, h4, h4]
      cases p with
      | nil =>
        simp only [routes]
        split <;> split <;> split <;> simp
      | cons x p =>
        simp only [routes]
        split <;> split <;> split <;> simp
  | cons l L ihL =>
    induction p with
    | nil =>
      have h1 : routes (l :: L ++ [s]) ([] ++ [x]) = (if l.accepts x.name then choices l.conds x.attrs * routes (L ++ [s]) [] else 0) +
        (if l.desc then routes (l :: L ++ [s]) [] else 0) := rfl
      have h2 : routes (L ++ [s]) [] = 0 := by cases L <;> rfl
      have h3 : routes (l :: L ++ [s]) [] = 0 := rfl
      rw [h1, h2, h3]
      simp only [routes, sumBefore, ite_self, Nat.mul_zero, Nat.add_zero]
    | cons m p ihp =>
      have h1 : routes (l :: L ++ [s]) (m :: p ++ [x]) =
        (if l.accepts m.name then choices l.conds m.attrs * routes (L ++ [s]) (p ++ [x]) else 0) +
        (if l.desc then routes (l :: L ++ [s]) (p ++ [x]) else 0) := rfl
      have h2 : sumBefore (fun q _ => routes (l :: L) q) (m :: p) = 0 + sumBefore (fun q _ =>
        (if l.accepts m.name then choices l.conds m.attrs * routes L q else 0) +
        (if l.desc then routes (l :: L) q else 0)) p := rfl
      have h3 : routes (l :: L) (m :: p) = (if l.accepts m.name then choices l.conds m.attrs * routes L p else 0) +
        (if l.desc then routes (l :: L) p else 0) := rfl
      have h4 : sumBefore (fun q _ => if l.accepts m.name then choices l.conds m.attrs * routes L q else 0) p =
          if l.accepts m.name then choices l.conds m.attrs * sumBefore (fun q _ => routes L q) p else 0 := by
        split
        · exact sumBefore_mul_left ..
        · exact sumBefore_zero p
      have h5 : sumBefore (fun q _ => if l.desc then routes (l :: L) q else 0) p =
          if l.desc then sumBefore (fun q _ => routes (l :: L) q) p else 0 := by
        split
        · rfl
        · exact sumBefore_zero p
      rw [h1, ihL, ihp, h2, h3, sumBefore_add, h4, h5]
      by_cases c1 : l.accepts m.name = true <;> by_cases c2 : l.desc = true <;> by_cases c3 : s.accepts x.name = true <;>
        by_cases c4 : s.desc = true <;> simp only [c1, c2, c3, c4, if_true, if_false, Bool.false_eq_true] <;> grind

theorem routes_nil (ss : List CStep) (s : CStep) : routes (ss ++ [s]) [] = 0 := by cases ss <;> rfl

theorem below_rev (B : List Edge → Nat) (L : List Edge) (q : List Open) :
    below B L q = sumBefore (fun l _ => W B L l.reverse) q.reverse := by
  rw [below_eq]
  induction q with
  | nil => rfl
  | cons x q ih =>
    rw [List.reverse_cons, sumBefore_snoc, ← ih, List.reverse_reverse]
    show W B L q + sumTails (W B L) q = _
    omega

theorem accepts_name (s : Step) (nm : List Byte) : accepts (edgeOf s).key nm ↔ s.accepts nm = true := by
  show accepts s.name nm ↔ _
  unfold accepts Step.accepts
  cases s.name <;> simp

theorem accepts_cond (c : Cond) (a : List Byte × List Byte) : (accepts c.name a.1 ∧ accepts c.value a.2) ↔ c.accepts a = true := by
  unfold accepts Cond.accepts
  cases c.name <;> cases c.value <;> simp

/-- The ways of counting the ways that grow with the steps as `routes` does, from any ways outside of the elements. -/
structure Routing (B : List Edge → Nat) (f : List CStep → List Open → Nat) : Prop where
  root : ∀ ss, f ss [] = B (ss.flatMap stepEdges)
  none : ∀ x p, f [] (x :: p) = 0
  snoc : ∀ ss s p x, f (ss ++ [s]) (p ++ [x]) = if s.accepts x.name then
      choices s.conds x.attrs * (f ss p + (if s.desc then sumBefore (fun l _ => f ss l) p else 0)) else 0

theorem Routing.routes : Routing bare routes := by
  refine ⟨fun ss => ?_, fun _ _ => rfl, routes_snoc⟩
  cases ss with
  | nil => rfl
  | cons s ss =>
    show 0 = _
    unfold bare
    rw [if_neg]
    simp [stepEdges]

theorem Routing.ways {B : List Edge → Nat} {routes : List CStep → List Open → Nat} (hf : Routing B routes)
    (ss : List CStep) :
    ∀ q, W B (ss.flatMap stepEdges) q = routes ss q.reverse := by
  obtain ⟨rs, rfl⟩ : ∃ rs, ss = rs.reverse := ⟨ss.reverse, by simp⟩
  induction rs with
  | nil =>
    intro q
    cases q with
    | nil => rw [W_root, List.reverse_nil, List.reverse_nil, hf.root]
    | cons x q =>
      rw [List.reverse_cons]
      show 0 = routes [] (q.reverse ++ [x])
      cases q.reverse with
      | nil => exact (hf.none _ _).symm
      | cons y p => exact (hf.none _ _).symm
  | cons s rs ih =>
    intro q
    rw [List.reverse_cons, List.flatMap_append]
    generalize hss : rs.reverse = ss at ih
    have key : ∀ (rc : List Cond) x q,
        W B (ss.flatMap stepEdges ++ [edgeOf s.toStep] ++ rc.reverse.flatMap condEdges) (x :: q) =
          choices rc.reverse x.attrs * (if s.accepts x.name then
            routes ss q.reverse + (if s.desc then sumBefore (fun l _ => routes ss l) q.reverse else 0) else 0) := by
      intro rc
      induction rc with
      | nil =>
        intro x q
        have hb : below B (ss.flatMap stepEdges) q = sumBefore (fun l _ => routes ss l) q.reverse := by
          rw [below_rev]
          apply sumBefore_congr
          intro l _
          rw [ih, List.reverse_reverse]
        simp only [List.reverse_nil, List.flatMap_nil, List.append_nil]
        rw [W_tag _ (show (edgeOf s.toStep).mask ≠ valMask by show ({} : Mask).seekop .OpenTag ≠ _; decide), hb, ih]
        simp only [choices, Nat.one_mul]
        by_cases h : s.accepts x.name = true
        · rw [if_pos ((accepts_name s.toStep _).2 h), if_pos h]; rfl
        · rw [if_neg (fun k => h ((accepts_name s.toStep _).1 k)), if_neg h]
      | cons c rc ihc =>
        intro x q
        rw [List.reverse_cons, List.flatMap_append, choices_snoc]
        have hL : ss.flatMap stepEdges ++ [edgeOf s.toStep] ++ (rc.reverse.flatMap condEdges ++ [c].flatMap condEdges) =
          (ss.flatMap stepEdges ++ [edgeOf s.toStep] ++ rc.reverse.flatMap condEdges) ++
          [⟨({} : Mask).seekop .Attribute, c.name, false⟩] ++ [⟨({} : Mask).seekop .ThisAttributeValue, c.value, false⟩] := by
          simp [condEdges]
        rw [hL, W_val _ _ rfl, ← sumBefore_mul]
        apply sumBefore_congr
        intro l a
        rw [ihc]
        by_cases h : c.accepts a = true
        · rw [if_pos ((accepts_cond c a).2 h), if_pos h]
        · rw [if_neg (fun k => h ((accepts_cond c a).1 k)), if_neg h, Nat.zero_mul]
    have hl : ss.flatMap stepEdges ++ [s].flatMap stepEdges =
        ss.flatMap stepEdges ++ [edgeOf s.toStep] ++ s.conds.reverse.reverse.flatMap condEdges := by
      simp [stepEdges]
    rw [hl]
    cases q with
    | nil => rw [List.reverse_nil, W_root, hf.root, ← hl, List.flatMap_append]
    | cons x q =>
      rw [key, List.reverse_cons, hf.snoc, List.reverse_reverse]
      split
      · rfl
      · rw [Nat.mul_zero]

theorem W_routes (ss : List CStep) (q : List Open) :
    W bare (ss.flatMap stepEdges) q = routes ss q.reverse := Routing.routes.ways ss q

/-- Without conditions the ways depend only on the names. -/
theorem routes_names {ss : List CStep} (hs : ∀ s ∈ ss, s.conds = []) : ∀ {p p' : List Open}, p.map (·.name) = p'.map (·.name) →
    routes ss p = routes ss p' := by
  intro p
  induction p generalizing ss with
  | nil =>
    intro p' h
    have : p' = [] := by simpa using h.symm
    rw [this]
  | cons x p ih =>
    intro p' h
    cases p' with
    | nil => simp at h
    | cons y p' =>
      simp only [List.map_cons, List.cons.injEq] at h
      cases ss with
      | nil => rfl
      | cons s ss =>
        simp only [routes]
        rw [h.1, ih (ss := s :: ss) hs h.2, ih (ss := ss) (fun s h => hs s (List.mem_cons_of_mem _ h)) h.2,
          hs s (List.mem_cons_self ..), choices_nil, choices_nil]

end TW.Path
