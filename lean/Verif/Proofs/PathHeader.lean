import Verif.Proofs.PathFeed
import Verif.Spec.PathHeader

/-!
# Documents with a header
-/

namespace TW.Path

open Spec.Path (Step CStep Cond Open Query Final Item routes reaches answers after grown Tidy choices share headerItems elementItems carried Heads)

variable {a : Atm} {lab : List (List Edge)} {key : List Byte} {s : Sel} {ty : Int} {G : List Edge → Prop}
  {q : List Open} {R : List (List Nat)} {B : List Edge → Nat}

/-- The ways outside of the elements with a header. -/
def hb (h : Open) (L : List Edge) : Nat := bare L + W bare L [h]

theorem bare_ne {L : List Edge} (h : L ≠ []) : bare L = 0 := if_neg h

theorem plus_hb (h : Open) (L : List Edge) (nm v : List Byte) : plus (hb h) L nm v [] = plus bare L nm v [h] := by
  unfold plus
  split
  · split
    · rename_i k
      rw [W_root]
      unfold hb
      rw [bare_ne (by simpa using k.1), Nat.zero_add]
    · rfl
  · rfl

/-- The ways in a document with a header. -/
def around (h : Open) (ss : List CStep) (p : List Open) : Nat := routes ss p + share h ss * routes ss.tail p

theorem routing_around (h : Open) : Routing (hb h) (around h) := by
  refine ⟨fun ss => ?_, fun x p => ?_, fun ss s p x => ?_⟩
  · unfold hb around
    rw [W_routes ss, ← W_root (B := bare), W_routes ss]
    congr 1
    cases ss with
    | nil => rfl
    | cons s ss =>
      show share h (s :: ss) * routes ss [] = routes (s :: ss) [h]
      simp only [share, routes, ite_self, Nat.add_zero]
      split <;> simp
  · unfold around
    simp [share, routes]
  · unfold around
    rw [routes_snoc]
    cases ss with
    | nil =>
      have h0 : routes [] (p ++ [x]) = 0 := by cases p <;> rfl
      simp only [List.nil_append, List.tail_cons, List.tail_nil, h0, share, Nat.mul_zero, Nat.add_zero, Nat.zero_mul]
    | cons t ts =>
      have e1 : share h (t :: ts ++ [s]) = share h (t :: ts) := rfl
      have e2 : (t :: ts ++ [s]).tail = ts ++ [s] := rfl
      have e3 : sumBefore (fun l _ => routes (t :: ts) l + share h (t :: ts) * routes (t :: ts).tail l) p =
          sumBefore (fun l _ => routes (t :: ts) l) p + share h (t :: ts) * sumBefore (fun l _ => routes ts l) p := by
        rw [sumBefore_add, sumBefore_mul_left]
        rfl
      rw [e1, e2, routes_snoc, e3]
      show _ = if _ then _ * (_ + _ * routes ts p + _) else 0
      by_cases c1 : s.accepts x.name = true <;> by_cases c2 : s.desc = true <;>
        simp only [c1, c2, if_true, if_false, Bool.false_eq_true] <;> grind

theorem W_around (h : Open) (ss : List CStep) (q : List Open) :
    W (hb h) (ss.flatMap stepEdges) q =
      W bare (ss.flatMap stepEdges) q + share h ss * W bare (ss.tail.flatMap stepEdges) q := by
  rw [(routing_around h).ways ss, W_routes ss, W_routes ss.tail]
  rfl

theorem below_around (h : Open) (ss : List CStep) (q : List Open) :
    below (hb h) (ss.flatMap stepEdges) q =
      below bare (ss.flatMap stepEdges) q + share h ss * below bare (ss.tail.flatMap stepEdges) q := by
  induction q with
  | nil => rfl
  | cons x q ih =>
    show W _ _ _ + below _ _ _ = (W _ _ _ + below _ _ _) + _ * (W _ _ _ + below _ _ _)
    rw [ih, W_around h ss]
    grind

theorem plus_around (h : Open) (ss : List CStep) (nm v : List Byte) (x : Open)
    (q : List Open) : plus (hb h) (ss.flatMap stepEdges) nm v (x :: q) =
      plus bare (ss.flatMap stepEdges) nm v (x :: q) + share h ss * plus bare (ss.tail.flatMap stepEdges) nm v (x :: q) := by
  obtain ⟨nx, as⟩ := x
  have h1 := W_around h ss (⟨nx, as ++ [(nm, v)]⟩ :: q)
  have h2 := W_around h ss (⟨nx, as⟩ :: q)
  rw [W_att, W_att, W_att, h2] at h1
  grind

/-- The outputs of elements. -/
theorem amount_element {x : Query} (hx : x.final = .element) (type : ElementType) (key : List Byte) (ph : Ph) (q : List Open) :
    amount B type key ph q (labelOf x, coreOf x) = gain B type key ph q (x.steps.flatMap stepEdges) := by
  unfold amount labelOf coreOf
  simp only [hx, List.append_nil, if_true]
  rcases nil_or_snoc (x.steps.flatMap stepEdges) with h | ⟨L, ed, hL⟩
  · rw [h, gain_nil]; rfl
  · have hnc : ¬ ed.mask = closeMask := by
      rcases (shape_steps x.steps).1 L ed (by rw [hL]; exact List.prefix_rfl) with ⟨k, -⟩ | ⟨k, -⟩ | ⟨k, -⟩ <;> rw [k] <;> decide
    rw [hL]
    simp only [List.getLast?_append, List.getLast?_singleton, Option.some_or, hnc, if_false]

theorem amount_content {x : Query} {d : Bool} (hx : x.final = .content d) (type : ElementType) (key : List Byte) (ph : Ph) (q : List Open) :
    amount B type key ph q (labelOf x, coreOf x) =
      if type = .Content then W B (x.steps.flatMap stepEdges) q + (if d then below B (x.steps.flatMap stepEdges) q else 0) else 0 := by
  unfold amount labelOf coreOf
  have hne : ¬ ({} : Mask).seekop .Content = {} := by decide
  simp only [hx, hne, if_false, List.append_nil, contMask, if_true]

theorem amount_attribute {x : Query} {d : Bool} {name : Option (List Byte)} (hx : x.final = .attribute d name)
    (type : ElementType) (key : List Byte) (ph : Ph) (q : List Open) :
    amount B type key ph q (labelOf x, coreOf x) =
      if valMask.matches type = true then
        match ph with
        | .named nm =>
          if accepts (name) nm then
            W B (x.steps.flatMap stepEdges) q + (if d then below B (x.steps.flatMap stepEdges) q else 0) else 0
        | _ => 0
      else 0 := by
  unfold amount labelOf coreOf
  have hne : ¬ ({} : Mask).seekop .ThisAttributeValue = {} := by decide
  have hne2 : ¬ ({} : Mask).seekop .ThisAttributeValue = contMask := by decide
  simp only [hx, hne, hne2, if_false, List.getLast?_append, List.getLast?_singleton, Option.some_or, List.dropLast_concat]
  cases type <;> cases ph <;> first | rfl | simp [pool, show valMask.matches .TagAttribValue = true by decide, show valMask.matches .HeaderAttribValue = true by decide]

theorem amount_close {x : Query} {d : Bool} (hx : x.final = .closeTag d) (type : ElementType) (key : List Byte) (ph : Ph) (q : List Open) :
    amount B type key ph q (labelOf x, coreOf x) =
      if closeMask.matches type = true then
        W B (x.steps.flatMap stepEdges) q + (if d then below B (x.steps.flatMap stepEdges) q else 0) else 0 := by
  unfold amount labelOf coreOf
  simp only [hx, List.getLast?_append, List.getLast?_singleton, Option.some_or, List.dropLast_concat, if_true]
  rw [if_pos (show ({} : Mask).seekop .CloseTag = closeMask from rfl)]

/-- What is reported in a document with a header. -/
theorem amount_around {x : Query} (h : Open) (type : ElementType) (key : List Byte)
    (ph : Ph) (q : List Open) (hq : q = [] → ph = .off) :
    amount (hb h) type key ph q (labelOf x, coreOf x) =
      amount bare type key ph q (labelOf x, coreOf x) + share h x.steps * amount bare type key ph q (labelOf x.behind, coreOf x.behind) := by
  have hw := W_around h x.steps
  have hbl := below_around h x.steps q
  have hbs : x.behind.steps = x.steps.tail := rfl
  cases hx : x.final with
  | element =>
    rw [amount_element hx, amount_element hx, amount_element (x := x.behind) hx, hbs]
    unfold gain
    split
    · exact hw _
    · exact hw _
    · cases q with
      | nil => cases hq rfl
      | cons y q => exact plus_around h x.steps ..
    · cases q with
      | nil => cases hq rfl
      | cons y q => exact plus_around h x.steps ..
    · rfl
  | content d =>
    rw [amount_content hx, amount_content hx, amount_content (x := x.behind) hx, hbs, hw, hbl]
    split
    · split <;> grind
    · rfl
  | «attribute» d name =>
    rw [amount_attribute hx, amount_attribute hx, amount_attribute (x := x.behind) hx, hbs, hw, hbl]
    split
    · split
      · split
        · split <;> grind
        · rfl
      · rfl
    · rfl
  | closeTag d =>
    rw [amount_close hx, amount_close hx, amount_close (x := x.behind) hx, hbs, hw, hbl]
    split
    · split <;> grind
    · rfl

/-- The queries without a step: those for contents, and those for the attributes of all elements. -/
def RootIn (x : Query) : Prop := x.steps = [] → (∃ d, x.final = .content d) ∨ ∃ name, x.final = .attribute true name

theorem RootIn.ok {x : Query} (h : RootIn x) : RootOk x := fun hs => (h hs).imp id fun ⟨name, h⟩ => ⟨true, name, h⟩

/-- What is reported in a header. -/
theorem amount_header {x : Query} (hne : RootIn x) (h : Open) {t t' : ElementType}
    (ht : t = .HeaderAttribName ∧ t' = .TagAttribName ∨ t = .HeaderAttribValue ∧ t' = .TagAttribValue ∨ t = .HeaderEnd ∧ t' = .CloseTag)
    (key : List Byte) (ph : Ph) :
    amount (hb h) t key ph [] (labelOf x, coreOf x) = amount bare t' key ph [h] (labelOf x, coreOf x) := by
  have hL : (∀ d, x.final ≠ .content d) → (∀ name, x.final ≠ .attribute true name) → bare (x.steps.flatMap stepEdges) = 0 := by
    intro hc hc'
    apply bare_ne
    intro hl
    rcases hne (steps_nil hl) with ⟨d, hd⟩ | ⟨nm, hd⟩
    · exact hc d hd
    · exact hc' nm hd
  have hW : (∀ d, x.final ≠ .content d) → (∀ name, x.final ≠ .attribute true name) →
      W (hb h) (x.steps.flatMap stepEdges) [] = W bare (x.steps.flatMap stepEdges) [h] := by
    intro hc hc'
    rw [W_root]
    unfold hb
    rw [hL hc hc', Nat.zero_add]
  cases hx : x.final with
  | element =>
    rw [amount_element hx, amount_element hx]
    rcases ht with ⟨rfl, rfl⟩ | ⟨rfl, rfl⟩ | ⟨rfl, rfl⟩
    · rfl
    · cases ph with
      | named nm => exact plus_hb ..
      | _ => rfl
    · rfl
  | content d =>
    rw [amount_content hx, amount_content hx]
    rcases ht with ⟨rfl, rfl⟩ | ⟨rfl, rfl⟩ | ⟨rfl, rfl⟩ <;> rfl
  | «attribute» d name =>
    rw [amount_attribute hx, amount_attribute hx]
    rcases ht with ⟨rfl, rfl⟩ | ⟨rfl, rfl⟩ | ⟨rfl, rfl⟩
    · rfl
    · rw [if_pos (show valMask.matches .HeaderAttribValue = true by decide), if_pos (show valMask.matches .TagAttribValue = true by decide)]
      cases d with
      | false =>
        rw [hW (by rw [hx]; exact fun _ h => nomatch h) (by rw [hx]; exact fun _ h => nomatch h)]
        rfl
      | true =>
        have : W (hb h) (x.steps.flatMap stepEdges) [] + below (hb h) (x.steps.flatMap stepEdges) [] =
            W bare (x.steps.flatMap stepEdges) [h] + below bare (x.steps.flatMap stepEdges) [h] := by
          show W (hb h) _ [] + 0 = _ + (W bare _ [] + 0)
          rw [W_root, W_root]
          unfold hb
          omega
        simp only [if_true, this]
    · rfl
  | closeTag d =>
    have hc : ∀ d, x.final ≠ .content d := by rw [hx]; exact fun _ h => nomatch h
    have hc' : ∀ name, x.final ≠ .attribute true name := by rw [hx]; exact fun _ h => nomatch h
    have hW := hW hc hc'
    have hL := hL hc hc'
    rw [amount_close hx, amount_close hx]
    rcases ht with ⟨rfl, rfl⟩ | ⟨rfl, rfl⟩ | ⟨rfl, rfl⟩
    · rfl
    · rfl
    · rw [if_pos (show closeMask.matches .HeaderEnd = true by decide), if_pos (show closeMask.matches .CloseTag = true by decide), hW]
      simp [below, W_root, hL]

theorem amounts_append (os : List (List Edge × Core)) (xs ys : List Item) : ∀ B ph q, ∃ B' ph' q',
    amounts os B ph q (xs ++ ys) = amounts os B ph q xs ++ amounts os B' ph' q' ys := by
  induction xs with
  | nil => intro B ph q; exact ⟨B, ph, q, rfl⟩
  | cons x xs ih =>
    intro B ph q
    obtain ⟨B', ph', q', h⟩ := ih (baseAfter B ph q x.1 x.2) (ph.next x.1 x.2) (afterRev ph q x.1 x.2)
    exact ⟨B', ph', q', by simp only [List.cons_append, amounts, h]⟩

theorem sum_congr {α : Type} {l : List α} {f g : α → Nat} (h : ∀ x ∈ l, f x = g x) : (l.map f).sum = (l.map g).sum := by
  rw [List.map_congr_left h]

/-- The attributes and the end of a header. -/
theorem amounts_attrs {xs : List Query} (hne : ∀ x ∈ xs, RootIn x)
    (name last : List Byte) (body : List Item) (attrs : List (List Byte × List Byte)) : ∀ as : List (List Byte × List Byte),
    amounts (xs.map fun x => (labelOf x, coreOf x)) (hb ⟨name, as⟩) .tag []
        (attrs.flatMap (fun a => [(.HeaderAttribName, a.1), (.HeaderAttribValue, a.2)]) ++ (.HeaderEnd, last) :: body) =
      amounts (xs.map fun x => (labelOf x, coreOf x)) bare .tag [⟨name, as⟩]
        (attrs.flatMap (fun a => [(.TagAttribName, a.1), (.TagAttribValue, a.2)]) ++ [(.CloseTag, last)]) ++
      amounts (xs.map fun x => (labelOf x, coreOf x)) (hb ⟨name, as ++ attrs⟩) .off [] body := by
  induction attrs with
  | nil =>
    intro as
    simp only [List.flatMap_nil, List.nil_append, List.append_nil, amounts, List.cons_append, List.map_map]
    congr 1
    exact sum_congr fun x hx => amount_header (hne x hx) _ (.inr (.inr ⟨rfl, rfl⟩)) ..
  | cons a attrs ih =>
    intro as
    have e1 : baseAfter (hb ⟨name, as⟩) .tag [] .HeaderAttribName a.1 = hb ⟨name, as⟩ := rfl
    have e2 : baseAfter (hb ⟨name, as⟩) (.named a.1) [] .HeaderAttribValue a.2 = hb ⟨name, as ++ [a]⟩ := by
      funext L
      rw [baseAfter_root (by decide), gain_named (by decide), plus_hb]
      unfold hb
      rw [W_att L name a.1 a.2 as []]
      omega
    have ih := ih (as ++ [a])
    rw [List.append_assoc] at ih
    simp only [List.flatMap_cons, List.cons_append, List.nil_append, amounts, List.map_map]
    show _ :: _ :: amounts _ (baseAfter (hb ⟨name, as⟩) (.named a.1) [] .HeaderAttribValue a.2) .tag [] _ =
      _ :: _ :: (amounts _ bare .tag [⟨name, as ++ [a]⟩] _ ++ _)
    rw [e2, ih]
    congr 1
    congr 1
    exact sum_congr fun x hx => amount_header (hne x hx) ⟨name, as⟩ (.inr (.inl ⟨rfl, rfl⟩)) a.2 (.named a.1)

/-- A header. -/
theorem amounts_header {xs : List Query} (hne : ∀ x ∈ xs, RootIn x)
    (name last : List Byte) (attrs : List (List Byte × List Byte)) (body : List Item) :
    amounts (xs.map fun x => (labelOf x, coreOf x)) bare .start [] (headerItems name attrs last ++ body) =
      amounts (xs.map fun x => (labelOf x, coreOf x)) bare .off [] (elementItems name attrs last) ++
      amounts (xs.map fun x => (labelOf x, coreOf x)) (hb ⟨name, attrs⟩) .off [] body := by
  have := amounts_attrs hne name last body attrs []
  unfold headerItems elementItems
  simp only [List.cons_append, List.append_assoc, amounts, List.map_map, List.nil_append] at this ⊢
  show _ :: amounts _ (hb ⟨name, []⟩) .tag [] _ = _ :: (amounts _ bare .tag [⟨name, []⟩] _ ++ _)
  rw [this]
  congr 1

/-! ## Behind the header -/

theorem sum_carried (h : Open) (f : Query → Nat) (xs : List Query) :
    ((xs.filter (·.type = ty)).map fun x => f x + share h x.steps * f x.behind).sum =
      (((xs ++ carried h xs).filter (·.type = ty)).map f).sum := by
  rw [List.filter_append, List.map_append, List.sum_append]
  induction xs with
  | nil => rfl
  | cons x xs ih =>
    have e1 : carried h (x :: xs) = List.replicate (share h x.steps) x.behind ++ carried h xs := rfl
    have e2 : ∀ k, ((List.replicate k x.behind).filter (·.type = ty)).map f = if x.type = ty then List.replicate k (f x.behind) else [] := by
      intro k
      have : x.behind.type = x.type := rfl
      rw [List.filter_replicate]
      split
      · rename_i hp
        rw [if_pos (by simpa [this] using hp), List.map_replicate]
      · rename_i hp
        rw [if_neg (by simpa [this] using hp)]
        rfl
    rw [e1, List.filter_append, List.map_append, List.sum_append, e2, List.filter_cons]
    split
    · rename_i hp
      rw [if_pos (by simpa using hp), List.map_cons, List.map_cons, List.sum_cons, List.sum_cons, ih, List.sum_replicate_nat]
      omega
    · rename_i hp
      rw [if_neg (by simpa using hp), ih]
      simp

/-- What is reported in a document behind a header. -/
theorem amounts_around {xs : List Query} (h : Open) (items : List Item)
    (hi : ∀ it ∈ items, ¬ Heads it.1) : ∀ prev ph (q : List Open),
    PhFor prev ph → Tidy (q.map (·.name)).reverse prev items → ph ≠ .start → (q = [] → ph = .off) →
    amounts ((xs.filter (·.type = ty)).map fun x => (labelOf x, coreOf x)) (hb h) ph q items =
      answers (xs ++ carried h xs) ty q.reverse prev items := by
  induction items with
  | nil => intro _ _ _ _ _ _ _; rfl
  | cons it items ih =>
    intro prev ph q hp ht hst hq
    obtain ⟨t1, t2, t3, t4⟩ := ht
    have hn := hi it (List.mem_cons_self ..)
    have hg := grown_rev hp q it t2 fun k => by simpa using t3 (.inl k)
    unfold amounts answers
    rw [after_rev ph] at t4
    rw [(off_next hq it.1 it.2).1, hg, ← ih (fun i hm => hi i (List.mem_cons_of_mem _ hm)) (some it) (ph.next it.1 it.2) (afterRev ph q it.1 it.2)
      (hp.next it t1 t2) t4 (Ph.next_ne _ _ _) (off_next (B := bare) hq it.1 it.2).2]
    congr 1
    rw [List.map_map, ← sum_carried]
    refine sum_congr fun x hx => ?_
    have hb : ∀ y : Query,
        amount bare it.1 it.2 ph q (labelOf y, coreOf y) = y.answers q.reverse prev it := by
      intro y
      refine amount_query q q.reverse ph prev it (fun k => (hn (.inr (.inr (.inr k)))).elim) (by simp)
        (fun _ => ⟨rfl, hp, t2, fun k => (hn ?_).elim⟩) hst
      rcases k with k | k
      · exact .inr (.inr (.inr k))
      · exact .inr (.inr (.inl k))
    show amount (Path.hb h) it.1 it.2 ph q (labelOf x, coreOf x) = _
    rw [amount_around h _ _ _ _ hq, hb x, hb x.behind]

theorem hdrOk_body (items : List Item) (hi : ∀ it ∈ items, it.1 ≠ .HeaderStart) : ∀ B ph q, HdrOk G B ph q items := by
  induction items with
  | nil => intro _ _ _; trivial
  | cons it items ih =>
    intro B ph q
    exact ⟨fun k => (hi it (List.mem_cons_self ..) k).elim, ih (fun i hm => hi i (List.mem_cons_of_mem _ hm)) _ _ _⟩

theorem tidy_body {r : Prop} (items : List Item) (hi : ∀ it ∈ items, it.1 ≠ .HeaderAttribValue) : ∀ {B : List Edge → Nat} {prev : Option Item} {ph : Ph} {q : List Open},
    PhFor prev ph → Tidy (q.map (·.name)).reverse prev items → PhOks r B ph q items := by
  induction items with
  | nil => intro _ _ _ _ _ _; trivial
  | cons it items ih =>
    intro B prev ph q h ht
    obtain ⟨h1, h2, h3, h4⟩ := ht
    refine ⟨⟨fun k => ?_, fun k => (hi it (List.mem_cons_self ..) k).elim⟩, ?_⟩
    · obtain ⟨p, k1, k2⟩ := h2 k
      exact ⟨p.2, (h p k1).2.1 k2⟩
    · rw [after_rev ph] at h4
      exact ih (fun i hm => hi i (List.mem_cons_of_mem _ hm)) (h.next it h1 h2) h4

theorem phOks_header {r : Prop} (name last : List Byte) (attrs : List (List Byte × List Byte)) (body : List Item) (hb : ∀ B, PhOks r B .off [] body) (B : List Edge → Nat) :
    PhOks r B .start [] (headerItems name attrs last ++ body) := by
  have hat : ∀ (attrs : List (List Byte × List Byte)) B, PhOks r B .tag [] (attrs.flatMap (fun a => [(.HeaderAttribName, a.1), (.HeaderAttribValue, a.2)]) ++ (.HeaderEnd, last) :: body) := by
    intro attrs
    induction attrs with
    | nil => intro B; exact ⟨⟨(nomatch ·), (nomatch ·)⟩, hb _⟩
    | cons a attrs ih =>
      intro B
      exact ⟨⟨(nomatch ·), (nomatch ·)⟩, ⟨(nomatch ·), fun _ => .inl ⟨a.1, rfl⟩⟩, ih _⟩
  unfold headerItems
  simp only [List.cons_append, List.append_assoc, List.nil_append]
  exact ⟨⟨(nomatch ·), (nomatch ·)⟩, hat _ _⟩

theorem tidy_element (name last : List Byte) (attrs : List (List Byte × List Byte)) : Tidy [] none (elementItems name attrs last) := by
  have hat : ∀ (attrs : List (List Byte × List Byte)) (p : Item), (p.1 = .OpenTag ∨ p.1 = .TagAttribValue) →
      Tidy [name] (some p) (attrs.flatMap (fun a => [(.TagAttribName, a.1), (.TagAttribValue, a.2)]) ++ [(.CloseTag, last)]) := by
    intro attrs
    induction attrs with
    | nil => intro p _; exact ⟨(nomatch ·), (nomatch ·), (nomatch ·), trivial⟩
    | cons a attrs ih =>
      intro p hp
      exact ⟨fun _ => ⟨p, rfl, hp⟩, (nomatch ·), (nomatch ·), (nomatch ·), fun _ => ⟨_, rfl, rfl⟩, (nomatch ·), ih _ (.inr rfl)⟩
  exact ⟨(nomatch ·), (nomatch ·), (nomatch ·), hat attrs _ (.inl rfl)⟩

theorem header_start (name last : List Byte) (attrs : List (List Byte × List Byte)) : ∀ it ∈ (headerItems name attrs last).tail, it.1 ≠ .HeaderStart := by
  intro it hm
  unfold headerItems at hm
  simp only [List.cons_append, List.tail_cons, List.mem_append, List.mem_flatMap, List.mem_singleton] at hm
  rcases hm with ⟨a, -, hm⟩ | rfl
  · simp only [List.mem_cons, List.not_mem_nil, or_false] at hm
    rcases hm with rfl | rfl <;> exact fun h => nomatch h
  · exact fun h => nomatch h

/-- The reports of a selector in a document with a header. -/
theorem header_outs {E : Prop} {xs : List Query} (hty : ty ≠ 0) (h2 : At E a lab {} [])
    (h3' : (outs a lab ty).map bareOut = (xs.filter (·.type = ty)).map fun x => (labelOf x, coreOf x))
    (hne : ∀ x ∈ xs, x.type = ty → RootIn x)
    (hq : ∀ x ∈ xs, x.type = ty → ∀ name, x.final = .attribute true name → NoCont a) (name last : List Byte) (attrs : List (List Byte × List Byte))
    (body : List Item) (hi : ∀ it ∈ body, ¬ Heads it.1) (ht : Tidy [] none body) :
    ∃ s, Sel.mk' a = .ok s ∧
      ∃ N rss s', (∀ m, N ≤ m → Sel.feed m (headerItems name attrs last ++ body) s = (.ok rss, s')) ∧
        rss.map (·.count ty) = answers xs ty [] none (elementItems name attrs last) ++
          answers (xs ++ carried ⟨name, attrs⟩ xs) ty [] none body := by
  have hne' : ∀ x ∈ xs, x.type = ty → RootOk x := fun x k1 k2 => (hne x k1 k2).ok
  have g := goal_outs hty h2 (erase_bare h3') hne' hq
  obtain ⟨s, R, h4, h5, -⟩ := init_inv g
  have off : PhFor none .off := fun _ h => nomatch h
  obtain ⟨N, rss, s', h6, h7⟩ := h5.feed g (flat_outs h2 h3') (headerItems name attrs last ++ body) (by
    refine ⟨fun _ _ _ _ _ _ => ⟨rfl, .inl rfl⟩, hdrOk_body _ (fun it hm => ?_) _ _ _⟩
    rcases List.mem_append.1 hm with hm | hm
    · exact header_start name last attrs it hm
    · exact fun k => hi it hm (.inl k)) (fun _ => phOks_header name last attrs body (fun B =>
      tidy_body body (fun it hm k => hi it hm (.inr (.inr (.inl k)))) off ht) _) (fun hx => (hx rfl).elim)
  refine ⟨s, h4, N, rss, s', h6, ?_⟩
  rw [h7, ← amounts_bare, h3', amounts_header (fun x hx => hne x (List.mem_filter.1 hx).1 (by simpa using (List.mem_filter.1 hx).2)),
    amounts_answers hne' (elementItems name attrs last) none .off [] [] rfl (fun x _ _ _ => ⟨rfl, off, tidy_element name last attrs⟩)
      (fun hx => nomatch hx) fun _ => rfl,
    amounts_around ⟨name, attrs⟩ body hi none .off [] off ht (fun hx => nomatch hx) fun _ => rfl]
  rfl

end TW.Path
