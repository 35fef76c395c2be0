import Verif.Spec.Selected
import Verif.Proofs.PathRoutes

/-!
# The answers of queries at the items of a tree
-/

namespace TW

open Spec Spec.Path

variable {app e : Enc} {xs : List Query} {ty : Int}

/-- The items with the answers. -/
def marked (xs : List Query) (ty : Int) : List Open → Option Item → List Item → List (Item × Nat)
  | _, _, [] => []
  | p, prev, it :: its => (it, total xs ty fun x => x.answers p prev it) :: marked xs ty (grown p prev it) (some it) its

theorem marked_eq (its : List Item) : ∀ p prev, its.zip (answers xs ty p prev its) = marked xs ty p prev its := by
  induction its with
  | nil => intro _ _; rfl
  | cons it its ih => intro p prev; rw [answers, List.zip_cons_cons, ih, marked]; rfl

def enc (e : Enc) (i : ElementType × List UChar) : Item := (i.1, i.2.flatMap e.print)

/-- The first item is no value of an attribute. -/
def NoValue : List Event → Prop
  | [] => True
  | .text _ :: es => NoValue es
  | .item t _ :: _ => t ≠ .TagAttribValue

theorem noValue_nodes (ns : Nodes) {es : List Event} (h : NoValue es) : NoValue (ns.events app ++ es) := by
  induction ns with
  | nil => exact h
  | text v ns ih => exact ih
  | elem n as ks ns _ _ => simp [Nodes.events, NoValue]

theorem grown_prev {it : Item} (h : it.1 ≠ .TagAttribValue) (p : List Open) (prev prev' : Option Item) :
    grown p prev it = grown p prev' it := by
  obtain ⟨t, i⟩ := it
  cases t <;> first | rfl | exact (h rfl).elim

theorem answers_prev {it : Item} (h : it.1 ≠ .TagAttribValue) (p : List Open) (prev prev' : Option Item) (x : Query) :
    x.answers p prev it = x.answers p prev' it := by
  obtain ⟨t, i⟩ := it
  unfold Query.answers
  cases x.final with
  | element => simp only []; cases t <;> first | rfl | exact (h rfl).elim
  | content d => rfl
  | «attribute» d nm => cases t <;> first | rfl | exact (h rfl).elim
  | closeTag d => rfl

theorem marked_prev {it : Item} (h : it.1 ≠ .TagAttribValue) (p : List Open) (prev prev' : Option Item) (its : List Item) :
    marked xs ty p prev (it :: its) = marked xs ty p prev' (it :: its) := by
  unfold marked
  rw [grown_prev h p prev prev']
  simp only [answers_prev h p prev prev']

/-- The items that are no contents. -/
def tagsOf (l : List (Item × Nat)) : List (Item × Nat) := l.filter fun x => x.1.1 ≠ .Content

theorem tagsOf_cons {x : Item × Nat} (h : x.1.1 ≠ .Content) (l : List (Item × Nat)) : tagsOf (x :: l) = x :: tagsOf l := by
  unfold tagsOf; rw [List.filter_cons_of_pos (by simpa using h)]

theorem tagsOf_content {x : Item × Nat} (h : x.1.1 = .Content) (l : List (Item × Nat)) : tagsOf (x :: l) = tagsOf l := by
  unfold tagsOf; rw [List.filter_cons_of_neg (by simpa using h)]

theorem tagsOf_append (l l' : List (Item × Nat)) : tagsOf (l ++ l') = tagsOf l ++ tagsOf l' := List.filter_append ..

/-- The items after the character data before them, with the next item. -/
theorem joined_item {cs : List UChar} {t : ElementType} {i : List UChar} (ht : t ≠ .TagAttribValue) (up : List Open)
    (prev : Option Item) (es : List Event) :
    ∃ l, marked xs ty up prev ((joined cs (.item t i :: es)).map (enc e)) = l ++
        marked xs ty up none (enc e (t, i) :: (joined [] es).map (enc e)) ∧
      l.map (·.1) = (if cs = [] then [] else [enc e (.Content, cs)]) ∧
      ∀ x ∈ l, x.2 = total xs ty fun q => q.answers up prev x.1 := by
  have hj : joined cs (.item t i :: es) = (if cs = [] then [] else [(.Content, cs)]) ++ (t, i) :: joined [] es := rfl
  rw [hj]
  by_cases h : cs = []
  · rw [if_pos h, if_pos h]
    exact ⟨[], marked_prev (it := enc e (t, i)) ht _ _ _ _, rfl, fun x hx => nomatch hx⟩
  · rw [if_neg h, if_neg h]
    refine ⟨[(enc e (.Content, cs), total xs ty fun q => q.answers up prev (enc e (.Content, cs)))], ?_, rfl, fun x hx => ?_⟩
    · show (_ :: marked xs ty up _ (enc e (t, i) :: _)) = _
      rw [marked_prev (it := enc e (t, i)) ht _ _ none _]
      rfl
    · rw [List.mem_singleton.1 hx]

theorem tagsOf_joined {es : List Event} (h : NoValue es) : ∀ (cs : List UChar) (up : List Open) (prev : Option Item),
    tagsOf (marked xs ty up prev ((joined cs es).map (enc e))) = tagsOf (marked xs ty up none ((joined [] es).map (enc e))) := by
  have flush : ∀ {l : List (Item × Nat)} {cs : List UChar}, l.map (·.1) = (if cs = [] then [] else [enc e (.Content, cs)]) → tagsOf l = [] := by
    intro l cs hl
    unfold tagsOf
    rw [List.filter_eq_nil_iff]
    intro x hx
    have : x.1 ∈ l.map (·.1) := List.mem_map_of_mem hx
    rw [hl] at this
    split at this
    · cases this
    · rw [List.mem_singleton.1 this]; simp [enc]
  induction es with
  | nil =>
    intro cs up prev
    unfold joined
    by_cases hc : cs = []
    · rw [if_pos hc, if_pos rfl]; rfl
    · rw [if_neg hc, if_pos rfl]; exact tagsOf_content rfl _
  | cons ev es ih =>
    intro cs up prev
    cases ev with
    | text c =>
      unfold joined
      rw [ih h, ih h ([] ++ c)]
    | item t i =>
      obtain ⟨l, h1, h2, -⟩ := joined_item (xs := xs) (ty := ty) (e := e) (cs := cs) (i := i) h up prev es
      obtain ⟨l', h1', h2', -⟩ := joined_item (xs := xs) (ty := ty) (e := e) (cs := []) (i := i) h up none es
      rw [h1, h1', tagsOf_append, tagsOf_append, flush h2, flush h2']

/-- The answers at the attributes. -/
def attrMarks (xs : List Query) (ty : Int) (app e : Enc) (up : List Open) (n : List Byte) (before : List (List Byte × List Byte)) :
    List (List Byte × List Byte) → List (Item × Nat)
  | [] => []
  | a :: as => ((.TagAttribName, recode app e a.1), 0) ::
      ((.TagAttribValue, recode app e a.2), total xs ty fun x => x.answers (up ++ [element app e n before])
        (some (.TagAttribName, recode app e a.1)) (.TagAttribValue, recode app e a.2)) ::
      attrMarks xs ty app e up n (before ++ [a]) as

theorem total_zero {f : Query → Nat} (h : ∀ x ∈ xs, x.type = ty → f x = 0) : total xs ty f = 0 := by
  unfold total
  rw [List.sum_eq_zero_iff_forall_eq_nat]
  intro k hk
  obtain ⟨x, h1, rfl⟩ := List.mem_map.1 hk
  rw [List.mem_filter, decide_eq_true_eq] at h1
  exact h x h1.1 h1.2

theorem answers_name (p : List Open) (prev : Option Item) (nm : List Byte) (x : Query) :
    x.answers p prev (.TagAttribName, nm) = 0 := by
  unfold Query.answers
  cases x.final <;> simp

theorem marked_attrs (up : List Open) (n : List Byte) (es : List Event) (as : List (List Byte × List Byte)) :
    ∀ (before : List (List Byte × List Byte)) (prev : Option Item), ∃ prev',
      marked xs ty (up ++ [element app e n before]) prev ((joined [] (attrEvents app as ++ es)).map (enc e)) =
        attrMarks xs ty app e up n before as ++ marked xs ty (up ++ [element app e n (before ++ as)]) prev' ((joined [] es).map (enc e)) := by
  induction as with
  | nil => intro before prev; exact ⟨prev, by rw [List.append_nil]; rfl⟩
  | cons a as ih =>
    intro before prev
    obtain ⟨prev', h⟩ := ih (before ++ [a]) (some (.TagAttribValue, recode app e a.2))
    refine ⟨prev', ?_⟩
    rw [List.append_assoc] at h
    have hj : joined [] (attrEvents app (a :: as) ++ es) = (.TagAttribName, decode app a.1) :: (.TagAttribValue, decode app a.2) ::
        joined [] (attrEvents app as ++ es) := by
      simp [attrEvents, joined]
    have hg : grown (up ++ [element app e n before]) (some (.TagAttribName, recode app e a.1)) (.TagAttribValue, recode app e a.2) =
        up ++ [element app e n (before ++ [a])] := by
      simp [grown, element]
    rw [hj, List.map_cons, List.map_cons]
    have hz := total_zero (xs := xs) (ty := ty) fun x _ _ => answers_name (up ++ [element app e n before]) prev (recode app e a.1) x
    rw [marked, marked, attrMarks]
    show (_, total xs ty fun x => x.answers (up ++ [element app e n before]) prev (.TagAttribName, recode app e a.1)) :: _ ::
      marked xs ty (grown (up ++ [element app e n before]) (some (.TagAttribName, recode app e a.1)) (.TagAttribValue, recode app e a.2))
        (some (.TagAttribValue, recode app e a.2)) _ = _
    rw [hg, hz, h]
    rfl

/-- The answers at the tags of nodes. -/
def nodeMarks (xs : List Query) (ty : Int) (app e : Enc) (up : List Open) : Nodes → List (Item × Nat)
  | .nil => []
  | .text _ ns => nodeMarks xs ty app e up ns
  | .elem n as ks ns =>
    ((.OpenTag, recode app e n), total xs ty fun x => x.answers up none (.OpenTag, recode app e n)) ::
      attrMarks xs ty app e up n [] as ++ nodeMarks xs ty app e (up ++ [element app e n as]) ks ++
      (if ks.isNil then
        ((.CloseTagIm, []), total xs ty fun x => x.answers (up ++ [element app e n as]) none (.CloseTagIm, []))
       else ((.CloseTag, recode app e n), total xs ty fun x => x.answers (up ++ [element app e n as]) none (.CloseTag, recode app e n))) ::
      nodeMarks xs ty app e up ns

theorem tagsOf_attrs (up : List Open) (n : List Byte) (as : List (List Byte × List Byte)) : ∀ before,
    tagsOf (attrMarks xs ty app e up n before as) = attrMarks xs ty app e up n before as := by
  induction as with
  | nil => intro _; rfl
  | cons a as ih =>
    intro before
    unfold attrMarks
    rw [tagsOf_cons (by simp), tagsOf_cons (by simp), ih]

theorem isNil_events {ks : Nodes} (h : ks.isNil = true) : ks = .nil := by
  cases ks <;> simp_all [Nodes.isNil]

/-- An element with its nodes. -/
theorem marked_elem (up : List Open) (prev : Option Item) (n : List Byte) (as : List (List Byte × List Byte)) (es : List Event) :
    ∃ prev', marked xs ty up prev ((joined [] (.item .OpenTag (decode app n) :: attrEvents app as ++ es)).map (enc e)) =
      ((.OpenTag, recode app e n), total xs ty fun x => x.answers up none (.OpenTag, recode app e n)) ::
        attrMarks xs ty app e up n [] as ++ marked xs ty (up ++ [element app e n as]) prev' ((joined [] es).map (enc e)) := by
  obtain ⟨prev', h⟩ := marked_attrs (xs := xs) (ty := ty) (app := app) (e := e) up n es as [] (some (.OpenTag, recode app e n))
  refine ⟨prev', ?_⟩
  have hj : joined [] (.item .OpenTag (decode app n) :: attrEvents app as ++ es) =
      (.OpenTag, decode app n) :: joined [] (attrEvents app as ++ es) := by simp [joined]
  rw [hj, List.map_cons, marked_prev (by simp [enc]) up prev none]
  show _ :: marked xs ty (up ++ [element app e n []]) (some (.OpenTag, recode app e n)) _ = _
  rw [h]
  rfl

theorem tagsOf_nodes (ns : Nodes) : ∀ (up : List Open) (prev : Option Item) (cs : List UChar) {es : List Event}, NoValue es →
    tagsOf (marked xs ty up prev ((joined cs (ns.events app ++ es)).map (enc e))) =
      nodeMarks xs ty app e up ns ++ tagsOf (marked xs ty up none ((joined [] es).map (enc e))) := by
  induction ns with
  | nil => intro up prev cs es h; exact tagsOf_joined h cs up prev
  | text v ns ih => intro up prev cs es h; exact ih up prev _ h
  | elem n as ks ns ihk ihn =>
    intro up prev cs es h
    rw [tagsOf_joined (noValue_nodes (.elem n as ks ns) h)]
    have hf : NoValue ((if ks.isNil then [Event.item .CloseTagIm []] else ks.events app ++ [.item .CloseTag (decode app n)]) ++
        (ns.events app ++ es)) := by
      split
      · simp [NoValue]
      · rw [List.append_assoc]; exact noValue_nodes ks (by simp [NoValue])
    obtain ⟨prev', h1⟩ := marked_elem (xs := xs) (ty := ty) (app := app) (e := e) up none n as
      ((if ks.isNil then [Event.item .CloseTagIm []] else ks.events app ++ [.item .CloseTag (decode app n)]) ++ (ns.events app ++ es))
    have h2 : (Nodes.elem n as ks ns).events app ++ es = .item .OpenTag (decode app n) :: attrEvents app as ++
      ((if ks.isNil then [Event.item .CloseTagIm []] else ks.events app ++ [.item .CloseTag (decode app n)]) ++ (ns.events app ++ es)) := by
      simp [Nodes.events]
    rw [h2, h1, tagsOf_append, tagsOf_joined hf, tagsOf_cons (by simp), tagsOf_attrs]
    have hc : ∀ (t : ElementType) (i : List UChar), t = .CloseTag ∨ t = .CloseTagIm →
        tagsOf (marked xs ty (up ++ [element app e n as]) none ((joined [] (.item t i :: (ns.events app ++ es))).map (enc e))) =
        ((t, i.flatMap e.print), total xs ty fun x => x.answers (up ++ [element app e n as]) none (t, i.flatMap e.print)) ::
          (nodeMarks xs ty app e up ns ++ tagsOf (marked xs ty up none ((joined [] es).map (enc e)))) := by
      intro t i ht
      have hj : joined [] (.item t i :: (ns.events app ++ es)) = (t, i) :: joined [] (ns.events app ++ es) := by simp [joined]
      have hg : grown (up ++ [element app e n as]) none (enc e (t, i)) = up := by
        rcases ht with rfl | rfl <;> simp [grown, enc]
      rw [hj, List.map_cons, marked, hg, tagsOf_cons (by rcases ht with rfl | rfl <;> simp [enc]), ihn up _ _ h]
      rfl
    unfold nodeMarks
    by_cases hk : ks.isNil = true
    · rw [if_pos hk, if_pos hk]
      cases isNil_events hk
      have := hc .CloseTagIm [] (.inr rfl)
      simp only [List.cons_append, List.nil_append, List.append_assoc]
      rw [this]
      rfl
    · rw [if_neg hk, if_neg hk, List.append_assoc (ks.events app), ihk _ _ _ (by simp [NoValue])]
      have := hc .CloseTag (decode app n) (.inl rfl)
      simp only [List.cons_append, List.nil_append, List.append_assoc]
      rw [this]
      rfl

/-! ## Sums -/

theorem total_add (f g : Query → Nat) : total xs ty (fun x => f x + g x) = total xs ty f + total xs ty g := by
  unfold total
  induction xs.filter (·.type = ty) with
  | nil => rfl
  | cons x l ih => simp only [List.map_cons, List.sum_cons, ih]; omega

theorem total_congr {f g : Query → Nat} (h : ∀ x ∈ xs, x.type = ty → f x = g x) : total xs ty f = total xs ty g := by
  unfold total
  congr 1
  apply List.map_congr_left
  intro x hx
  rw [List.mem_filter, decide_eq_true_eq] at hx
  exact h x hx.1 hx.2

theorem choices_mono (cs : List Cond) (as : List (List Byte × List Byte)) (a : List Byte × List Byte) :
    choices cs as ≤ choices cs (as ++ [a]) := by
  induction as generalizing cs with
  | nil =>
    cases cs with
    | nil => simp [choices]
    | cons c cs => simp [choices]
  | cons b as ih =>
    cases cs with
    | nil => simp [choices]
    | cons c cs =>
      simp only [List.cons_append, choices]
      have h1 := ih cs
      have h2 := ih (c :: cs)
      split <;> omega

theorem routes_mono (up : List Open) (n : List Byte) (as : List (List Byte × List Byte)) (a : List Byte × List Byte) :
    ∀ ss, routes ss (up ++ [⟨n, as⟩]) ≤ routes ss (up ++ [⟨n, as ++ [a]⟩]) := by
  induction up with
  | nil =>
    intro ss
    cases ss with
    | nil => simp [routes]
    | cons s ss =>
      simp only [List.nil_append, routes]
      have := Nat.mul_le_mul_right (routes ss []) (choices_mono s.conds as a)
      split <;> split <;> omega
  | cons x up ih =>
    intro ss
    cases ss with
    | nil => simp [routes]
    | cons s ss =>
      simp only [List.cons_append, routes]
      have h1 := Nat.mul_le_mul_left (choices s.conds x.attrs) (ih ss)
      have h2 := ih (s :: ss)
      split <;> split <;> omega

/-! ## Elements -/

theorem perTag_tagsOf {l : List (Item × Nat)} (h : ∀ x ∈ l, x.1.1 = .Content → x.2 = 0) : perTag (tagsOf l) = perTag l := by
  induction l with
  | nil => rfl
  | cons x l ih =>
    have ih := ih fun y hy => h y (List.mem_cons_of_mem _ hy)
    by_cases hx : x.1.1 = .Content
    · rw [tagsOf_content hx, ih, perTag, if_neg (by rw [hx]; decide), h x (List.mem_cons_self ..) hx, Nat.zero_add]
    · rw [tagsOf_cons hx, perTag, perTag, ih]

theorem perTag_zero {l l' : List (Item × Nat)} (h : ∀ x ∈ l, x.1.1 ≠ .OpenTag ∧ x.2 = 0) : perTag (l ++ l') = perTag l' := by
  induction l with
  | nil => rfl
  | cons x l ih =>
    obtain ⟨h1, h2⟩ := h x (List.mem_cons_self ..)
    rw [List.cons_append, perTag, if_neg h1, h2, ih fun y hy => h y (List.mem_cons_of_mem _ hy), Nat.zero_add]

/-- The number of ways to an element. -/
def waysTo (xs : List Query) (ty : Int) (p : List Open) : Nat := total xs ty fun x => routes x.steps p

theorem perTag_attrs (hx : ∀ x ∈ xs, x.type = ty → x.final = .element) (up : List Open) (n : List Byte) {l : List (Item × Nat)} {r : List Nat}
    (hl : perTag l = (0, r)) (as : List (List Byte × List Byte)) : ∀ before,
    (perTag (attrMarks xs ty app e up n before as ++ l)).2 = r ∧
    waysTo xs ty (up ++ [element app e n before]) + (perTag (attrMarks xs ty app e up n before as ++ l)).1 =
      waysTo xs ty (up ++ [element app e n (before ++ as)]) := by
  induction as with
  | nil => intro before; rw [List.append_nil]; simp [attrMarks, hl]
  | cons a as ih =>
    intro before
    obtain ⟨h1, h2⟩ := ih (before ++ [a])
    rw [List.append_assoc] at h2
    unfold attrMarks
    rw [List.cons_append, List.cons_append, perTag, if_neg (by simp), perTag, if_neg (by simp)]
    refine ⟨h1, ?_⟩
    rw [← List.singleton_append (l := as), ← h2]
    have h3 : (total xs ty fun x => x.answers (up ++ [element app e n before]) (some (.TagAttribName, recode app e a.1))
          (.TagAttribValue, recode app e a.2)) =
        total xs ty fun x => routes x.steps (up ++ [element app e n (before ++ [a])]) - routes x.steps (up ++ [element app e n before]) := by
      apply total_congr
      intro x k1 k2
      unfold Query.answers
      rw [hx x k1 k2]
      simp [grown, element]
    have h4 : waysTo xs ty (up ++ [element app e n before]) +
        (total xs ty fun x => routes x.steps (up ++ [element app e n (before ++ [a])]) - routes x.steps (up ++ [element app e n before])) =
        waysTo xs ty (up ++ [element app e n (before ++ [a])]) := by
      unfold waysTo
      rw [← total_add]
      apply total_congr
      intro x _ _
      have := routes_mono up (recode app e n) (before.map fun a => (recode app e a.1, recode app e a.2)) (recode app e a.1, recode app e a.2) x.steps
      have h5 : element app e n (before ++ [a]) = ⟨recode app e n, (before.map fun a => (recode app e a.1, recode app e a.2)) ++
        [(recode app e a.1, recode app e a.2)]⟩ := by simp [element]
      rw [h5]
      unfold element
      omega
    rw [h3]
    simp only []
    omega

theorem perTag_nodes (hx : ∀ x ∈ xs, x.type = ty → x.final = .element) (ns : Nodes) : ∀ (up : List Open) {l : List (Item × Nat)} {r : List Nat},
    perTag l = (0, r) → perTag (nodeMarks xs ty app e up ns ++ l) = (0, (ns.elements app e up).map (waysTo xs ty) ++ r) := by
  induction ns with
  | nil => intro up l r h; exact h
  | text v ns ih => intro up l r h; exact ih up h
  | elem n as ks ns ihk ihn =>
    intro up l r h
    have h1 := ihn up h
    have hc : ∀ p it, (it.1 = .CloseTag ∨ it.1 = .CloseTagIm) → (total xs ty fun x => x.answers p none it) = 0 := by
      intro p it hit
      apply total_zero
      intro x k1 k2
      unfold Query.answers
      rw [hx x k1 k2]
      rcases hit with k | k <;> simp [k]
    have h2 : perTag ((if ks.isNil then
        (((.CloseTagIm, []) : Item), total xs ty fun x => x.answers (up ++ [element app e n as]) none (.CloseTagIm, []))
       else ((.CloseTag, recode app e n), total xs ty fun x => x.answers (up ++ [element app e n as]) none (.CloseTag, recode app e n))) ::
        (nodeMarks xs ty app e up ns ++ l)) = (0, (ns.elements app e up).map (waysTo xs ty) ++ r) := by
      split
      · rw [hc _ _ (.inr rfl), perTag, if_neg (by simp), h1, Nat.zero_add]
      · rw [hc _ _ (.inl rfl), perTag, if_neg (by simp), h1, Nat.zero_add]
    have h3 := ihk (up ++ [element app e n as]) h2
    obtain ⟨h4, h5⟩ := perTag_attrs (app := app) (e := e) hx up n h3 as []
    have h6 : (total xs ty fun x => x.answers up none (.OpenTag, recode app e n)) = waysTo xs ty (up ++ [element app e n []]) := by
      apply total_congr
      intro x k1 k2
      unfold Query.answers
      rw [hx x k1 k2]
      simp [grown, element]
    unfold nodeMarks
    rw [List.append_assoc, List.append_assoc, List.cons_append, List.cons_append, perTag, if_pos rfl, h4, h6, h5]
    simp [Nodes.elements]

/-! ## Close tags and attributes -/

/-- The items of some types with the answers. -/
def pick (types : List ElementType) (l : List (Item × Nat)) : List (List Byte × Nat) :=
  (l.filter fun x => x.1.1 ∈ types).map fun x => (x.1.2, x.2)

theorem pick_append (types : List ElementType) (l l' : List (Item × Nat)) : pick types (l ++ l') = pick types l ++ pick types l' := by
  simp [pick]

theorem pick_cons_pos {types : List ElementType} {x : Item × Nat} (h : x.1.1 ∈ types) (l : List (Item × Nat)) :
    pick types (x :: l) = (x.1.2, x.2) :: pick types l := by simp [pick, h]

theorem pick_cons_neg {types : List ElementType} {x : Item × Nat} (h : x.1.1 ∉ types) (l : List (Item × Nat)) :
    pick types (x :: l) = pick types l := by simp [pick, h]

theorem pick_tagsOf {types : List ElementType} (h : .Content ∉ types) (l : List (Item × Nat)) : pick types (tagsOf l) = pick types l := by
  induction l with
  | nil => rfl
  | cons x l ih =>
    by_cases hx : x.1.1 = .Content
    · rw [tagsOf_content hx, ih, pick_cons_neg (by rw [hx]; exact h)]
    · rw [tagsOf_cons hx]
      by_cases hm : x.1.1 ∈ types
      · rw [pick_cons_pos hm, pick_cons_pos hm, ih]
      · rw [pick_cons_neg hm, pick_cons_neg hm, ih]

theorem pick_none {types : List ElementType} {l : List (Item × Nat)} (h : ∀ x ∈ l, x.1.1 ∉ types) : pick types l = [] := by
  unfold pick
  rw [List.map_eq_nil_iff, List.filter_eq_nil_iff]
  intro x hx
  simpa using h x hx

theorem attrMarks_types (up : List Open) (n : List Byte) (as : List (List Byte × List Byte)) : ∀ before,
    ∀ x ∈ attrMarks xs ty app e up n before as, x.1.1 = .TagAttribName ∨ x.1.1 = .TagAttribValue := by
  induction as with
  | nil => intro _ x hx; cases hx
  | cons a as ih =>
    intro before x hx
    simp only [attrMarks, List.mem_cons] at hx
    rcases hx with rfl | rfl | hx
    · exact .inl rfl
    · exact .inr rfl
    · exact ih _ x hx

theorem pick_closes (ns : Nodes) : ∀ up : List Open, pick [.CloseTag, .CloseTagIm] (nodeMarks xs ty app e up ns) =
    (ns.closes app e up).map fun c => (c.2, total xs ty fun x => x.atClose c.1) := by
  have ha : ∀ (x : Query) (p : List Open) (it : Item), it.1 = .CloseTag ∨ it.1 = .CloseTagIm → x.answers p none it = x.atClose p := by
    intro x p it h
    unfold Query.answers Query.atClose
    cases x.final with
    | element => rcases h with k | k <;> simp [k]
    | content d => rcases h with k | k <;> simp [k]
    | «attribute» d nm => rcases h with k | k <;> simp [k]
    | closeTag d => simp [h]
  induction ns with
  | nil => intro up; rfl
  | text v ns ih => intro up; exact ih up
  | elem n as ks ns ihk ihn =>
    intro up
    unfold nodeMarks
    rw [pick_append, pick_append, pick_cons_neg (by simp), pick_none (l := attrMarks xs ty app e up n [] as), ihk, List.nil_append]
    · simp only [Nodes.closes, List.map_append, List.map_cons]
      congr 1
      split
      · rename_i h
        rw [pick_cons_pos (by simp), ihn]
        simp only [ha _ _ (.CloseTagIm, []) (.inr rfl)]
      · rename_i h
        rw [pick_cons_pos (by simp), ihn]
        simp only [ha _ _ (.CloseTag, recode app e n) (.inl rfl)]
    · intro x hx
      rcases attrMarks_types up n as [] x hx with h | h <;> simp [h]

theorem pick_attributesOf (hx : ∀ x ∈ xs, x.type = ty → x.final ≠ .element) (up : List Open) (n : List Byte) (as : List (List Byte × List Byte)) : ∀ before,
    pick [.TagAttribValue] (attrMarks xs ty app e up n before as) =
      (attributesOf app e up n before as).map fun a => (a.2.2, total xs ty fun x => x.atAttribute a.1 a.2.1) := by
  induction as with
  | nil => intro _; rfl
  | cons a as ih =>
    intro before
    unfold attrMarks attributesOf
    rw [pick_cons_neg (by simp), pick_cons_pos (by simp), ih, List.map_cons]
    congr 2
    apply total_congr
    intro x k1 k2
    have k3 := hx x k1 k2
    unfold Query.answers Query.atAttribute
    cases hf : x.final with
    | element => exact (k3 hf).elim
    | content d => simp
    | «attribute» d nm => simp
    | closeTag d => simp

theorem pick_attributes (hx : ∀ x ∈ xs, x.type = ty → x.final ≠ .element) (ns : Nodes) : ∀ up : List Open,
    pick [.TagAttribValue] (nodeMarks xs ty app e up ns) =
      (ns.attributes app e up).map fun a => (a.2.2, total xs ty fun x => x.atAttribute a.1 a.2.1) := by
  induction ns with
  | nil => intro up; rfl
  | text v ns ih => intro up; exact ih up
  | elem n as ks ns ihk ihn =>
    intro up
    unfold nodeMarks
    rw [pick_append, pick_append, pick_cons_neg (by simp), pick_attributesOf hx, ihk]
    simp only [Nodes.attributes, List.map_append]
    congr 1
    split
    · rw [pick_cons_neg (by simp), ihn]
    · rw [pick_cons_neg (by simp), ihn]

/-! ## Contents -/

theorem pick_content {l : List (Item × Nat)} {up : List Open} {prev : Option Item} {cs : List UChar}
    (h1 : l.map (·.1) = if cs = [] then [] else [enc e (.Content, cs)])
    (h2 : ∀ x ∈ l, x.2 = total xs ty fun q => q.answers up prev x.1) :
    pick [.Content] l = (content e up cs).map fun c => (c.2, total xs ty fun x => x.atContent c.1) := by
  unfold content
  by_cases h : cs = []
  · rw [if_pos h] at h1 ⊢
    rw [List.map_eq_nil_iff.1 h1]
    rfl
  · rw [if_neg h] at h1 ⊢
    obtain ⟨x, rfl, h3⟩ := List.map_eq_singleton_iff.1 h1
    rw [pick_cons_pos (by rw [h3]; simp [enc]), h2 x (List.mem_cons_self ..), h3]
    simp only [pick, List.filter_nil, List.map_nil, List.map_cons]
    congr 2
    apply total_congr
    intro q _ _
    unfold Query.answers Query.atContent
    cases q.final <;> simp [enc]

theorem joined_text_nil (es es' : List Event) : ∀ cs, joined cs (es ++ .text [] :: es') = joined cs (es ++ es') := by
  induction es with
  | nil => intro cs; simp [joined]
  | cons ev es ih =>
    intro cs
    cases ev with
    | text c => exact ih _
    | item t i => simp only [List.cons_append, joined, ih]

theorem pick_contents (ns : Nodes) : ∀ (up : List Open) (prev : Option Item) (cs tail : List UChar) (t : ElementType) (i : List UChar) (es : List Event),
    t ≠ .TagAttribValue → t ≠ .Content →
    pick [.Content] (marked xs ty up prev ((joined cs (ns.events app ++ .text tail :: .item t i :: es)).map (enc e))) =
      ((ns.contents app e up cs tail).map fun c => (c.2, total xs ty fun x => x.atContent c.1)) ++
        pick [.Content] (marked xs ty (grown up none (enc e (t, i))) (some (enc e (t, i))) ((joined [] es).map (enc e))) := by
  induction ns with
  | nil =>
    intro up prev cs tail t i es h1 h2
    obtain ⟨l, k1, k2, k3⟩ := joined_item (xs := xs) (ty := ty) (e := e) (cs := cs ++ tail) (i := i) h1 up prev es
    show pick _ (marked xs ty up prev ((joined (cs ++ tail) (.item t i :: es)).map (enc e))) = _
    rw [k1, pick_append, pick_content k2 k3, marked, pick_cons_neg (by simpa [enc] using h2)]
    rfl
  | text v ns ih => intro up prev cs tail t i es h1 h2; exact ih up prev _ tail t i es h1 h2
  | elem n as ks ns ihk ihn =>
    intro up prev cs tail t i es h1 h2
    obtain ⟨l, k1, k2, k3⟩ := joined_item (xs := xs) (ty := ty) (e := e) (cs := cs) (t := .OpenTag) (i := decode app n) (by decide) up prev
      (attrEvents app as ++ ((if ks.isNil then [Event.item .CloseTagIm []] else ks.events app ++ [.item .CloseTag (decode app n)]) ++
        (ns.events app ++ .text tail :: .item t i :: es)))
    obtain ⟨prev', h3⟩ := marked_elem (xs := xs) (ty := ty) (app := app) (e := e) up none n as
      ((if ks.isNil then [Event.item .CloseTagIm []] else ks.events app ++ [.item .CloseTag (decode app n)]) ++
        (ns.events app ++ .text tail :: .item t i :: es))
    have h4 : (Nodes.elem n as ks ns).events app ++ .text tail :: .item t i :: es = .item .OpenTag (decode app n) :: (attrEvents app as ++
      ((if ks.isNil then [Event.item .CloseTagIm []] else ks.events app ++ [.item .CloseTag (decode app n)]) ++
        (ns.events app ++ .text tail :: .item t i :: es))) := by
      simp [Nodes.events]
    have h5 : ∀ es, (joined [] (.item .OpenTag (decode app n) :: attrEvents app as ++ es)).map (enc e) =
        enc e (.OpenTag, decode app n) :: (joined [] (attrEvents app as ++ es)).map (enc e) := by intro es; simp [joined]
    rw [h4, k1, ← h5, h3, pick_append, pick_content k2 k3, pick_append, pick_cons_neg (by simp), pick_none (l := attrMarks xs ty app e up n [] as)]
    · have hg : ∀ (t' : ElementType) (i' : List UChar), t' = .CloseTag ∨ t' = .CloseTagIm →
          grown (up ++ [element app e n as]) none (enc e (t', i')) = up := by
        intro t' i' ht
        rcases ht with rfl | rfl <;> simp [grown, enc]
      rw [List.nil_append]
      simp only [Nodes.contents, List.map_append, List.append_assoc]
      congr 1
      by_cases hk : ks.isNil = true
      · cases isNil_events hk
        have := ihk (up ++ [element app e n as]) prev' [] [] .CloseTagIm [] (ns.events app ++ .text tail :: .item t i :: es) (by decide) (by decide)
        rw [hg _ _ (.inr rfl), ihn up _ _ _ _ _ _ h1 h2] at this
        rw [if_pos hk]
        refine Eq.trans ?_ this
        rfl
      · have := ihk (up ++ [element app e n as]) prev' [] [] .CloseTag (decode app n) (ns.events app ++ .text tail :: .item t i :: es) (by decide) (by decide)
        rw [hg _ _ (.inl rfl), ihn up _ _ _ _ _ _ h1 h2, joined_text_nil] at this
        rw [if_neg hk]
        refine Eq.trans ?_ this
        simp
    · intro x hx
      rcases attrMarks_types up n as [] x hx with h | h <;> simp [h]

end TW
