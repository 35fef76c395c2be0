import Verif.Model.Ownership

/-!
# Programs without assignments release each block once
-/

namespace TW.Own

/-- The block of a pointer. -/
def Ptr.held : Ptr → List Nat
  | .block i => [i]
  | _ => []

/-- The blocks of the variables. -/
def held (vs : List (Nat × Obj)) : List Nat := vs.flatMap fun v => v.2.ptr.held

/-- What the objects of a class are like, if all of them own their memory (`nx`) or not. -/
def Good (c : Cls) (nx : Bool) (o : Obj) : Prop :=
  o.ptr ≠ .wild ∧ (c ≠ .state → o.ptr ≠ .null) ∧ (c = .staticBuffer ∧ nx = false ∨ o.owned = true) ∧
    (o.ptr = .ext → c = .staticBuffer ∧ o.owned = false)

/-- Each block of a variable is allocated, and has no other owner; if `nx`, there are no other blocks. -/
structure Inv (c : Cls) (nx : Bool) (p : Prog) : Prop where
  keys : (p.vars.map Prod.fst).Nodup
  good : ∀ v ∈ p.vars, Good c nx v.2
  once : ∀ i, p.heap.live.count i ≤ 1
  fresh : ∀ i, p.heap.next ≤ i → p.heap.live.count i = 0
  held : ∀ i, (held p.vars).count i ≤ p.heap.live.count i
  all : nx = true → ∀ i, (Own.held p.vars).count i = p.heap.live.count i

theorem get_some {p : Prog} {x : Nat} {o : Obj} (hk : (p.vars.map Prod.fst).Nodup) (h : p.get x = some o) :
    ∃ l1 l2, p.vars = l1 ++ (x, o) :: l2 ∧ (∀ v ∈ l1, v.1 ≠ x) ∧ ∀ v ∈ l2, v.1 ≠ x := by
  unfold Prog.get at h
  revert hk h
  generalize p.vars = vs
  intro hk h
  induction vs with
  | nil => cases h
  | cons v vs ih =>
    rw [List.map_cons, List.nodup_cons] at hk
    rw [List.find?_cons] at h
    split at h
    · rename_i hx
      simp only [Option.map_some, Option.some.injEq] at h
      have hx : v.1 = x := by simpa using hx
      refine ⟨[], vs, ?_, fun v hv => (nomatch hv), fun w hw hwx => hk.1 ?_⟩
      · rw [← hx, ← h]
        rfl
      · rw [hx, ← hwx]
        exact List.mem_map_of_mem hw
    · rename_i hx
      obtain ⟨l1, l2, h1, h2, h3⟩ := ih hk.2 h
      refine ⟨v :: l1, l2, by rw [h1]; rfl, fun w hw => ?_, h3⟩
      rcases List.mem_cons.1 hw with rfl | hw
      · simpa using hx
      · exact h2 w hw

theorem get_none {p : Prog} {x : Nat} (h : p.get x = none) : ∀ v ∈ p.vars, v.1 ≠ x := by
  unfold Prog.get at h
  rw [Option.map_eq_none_iff, List.find?_eq_none] at h
  intro v hv
  simpa using h v hv

theorem set_split {x : Nat} {o o' : Obj} {l1 l2 : List (Nat × Obj)} (h1 : ∀ v ∈ l1, v.1 ≠ x) (h2 : ∀ v ∈ l2, v.1 ≠ x) :
    set x o' (l1 ++ (x, o) :: l2) = l1 ++ (x, o') :: l2 := by
  have key : ∀ l : List (Nat × Obj), (∀ v ∈ l, v.1 ≠ x) → l.map (fun v => if v.1 == x then (x, o') else v) = l := by
    intro l hl
    conv => rhs; rw [← List.map_id l]
    apply List.map_congr_left
    intro v hv
    simp [hl v hv]
  unfold set
  rw [List.map_append, List.map_cons, key _ h1, key _ h2]
  simp

theorem filter_split {x : Nat} {o : Obj} {l1 l2 : List (Nat × Obj)} (h1 : ∀ v ∈ l1, v.1 ≠ x) (h2 : ∀ v ∈ l2, v.1 ≠ x) :
    (l1 ++ (x, o) :: l2).filter (fun v => v.1 != x) = l1 ++ l2 := by
  rw [List.filter_append, List.filter_cons_of_neg (by simp), List.filter_eq_self.2 (fun v hv => by simpa using h1 v hv),
    List.filter_eq_self.2 (fun v hv => by simpa using h2 v hv)]

theorem held_split (x : Nat) (o : Obj) (l1 l2 : List (Nat × Obj)) (i : Nat) :
    (held (l1 ++ (x, o) :: l2)).count i = (held l1).count i + o.ptr.held.count i + (held l2).count i := by
  simp only [held, List.flatMap_append, List.flatMap_cons, List.count_append]
  omega

theorem held_append (l1 l2 : List (Nat × Obj)) (i : Nat) : (held (l1 ++ l2)).count i = (held l1).count i + (held l2).count i := by
  simp only [held, List.flatMap_append, List.count_append]

theorem count_block (i j : Nat) : (Ptr.block i).held.count j = if i = j then 1 else 0 := by
  simp only [Ptr.held, List.count_singleton]
  by_cases h : i = j <;> simp [h]

theorem nodup_middle {a : Nat} {l1 l2 : List Nat} : (l1 ++ a :: l2).Nodup ↔ a ∉ l1 ++ l2 ∧ (l1 ++ l2).Nodup := by
  rw [List.perm_middle.nodup_iff, List.nodup_cons]

/-- The memory of an object of the program can be used. -/
theorem Inv.live {c : Cls} {nx : Bool} {p : Prog} (h : Inv c nx p) {x : Nat} {o : Obj} (ho : (x, o) ∈ p.vars) {i : Nat}
    (hi : o.ptr = .block i) : i ∈ p.heap.live := by
  obtain ⟨l1, l2, hl⟩ := List.append_of_mem ho
  have := h.held i
  rw [hl, held_split, hi, count_block, if_pos rfl] at this
  exact List.count_pos_iff.1 (by omega)

theorem access_ok {q : Ptr} {h : Heap} (h1 : q ≠ .wild) (h2 : q ≠ .null) (h3 : ∀ i, q = .block i → i ∈ h.live) :
    access q h = (.ok (), h) := by
  cases q with
  | null => exact absurd rfl h2
  | wild => exact absurd rfl h1
  | ext => rfl
  | block i =>
    show (if i ∈ h.live then _ else _) = _
    rw [if_pos (h3 i rfl)]

/-- A new variable with a new block. -/
theorem Inv.add {c : Cls} {nx : Bool} {p : Prog} (h : Inv c nx p) {x : Nat} (hx : p.get x = none) {b : Bool}
    (hb : c = .staticBuffer ∧ nx = false ∨ b = true) :
    Inv c nx { heap := { live := p.heap.next :: p.heap.live, next := p.heap.next + 1 },
               vars := (x, { ptr := .block p.heap.next, owned := b }) :: p.vars } := by
  have hf := h.fresh p.heap.next (Nat.le_refl _)
  have hc : ∀ i, (Own.held ((x, ({ ptr := .block p.heap.next, owned := b } : Obj)) :: p.vars)).count i =
      (if p.heap.next = i then 1 else 0) + (Own.held p.vars).count i := by
    intro i
    have := held_split x { ptr := .block p.heap.next, owned := b } [] p.vars i
    simp only [List.nil_append] at this
    rw [this, count_block]
    simp [Own.held]
  have hl : ∀ i, (p.heap.next :: p.heap.live).count i = (if p.heap.next = i then 1 else 0) + p.heap.live.count i := by
    intro i
    rw [List.count_cons]
    by_cases hi : p.heap.next = i <;> simp [hi] <;> omega
  refine ⟨?_, ?_, ?_, ?_, ?_, ?_⟩
  · rw [List.map_cons, List.nodup_cons]
    refine ⟨fun hm => ?_, h.keys⟩
    obtain ⟨v, hv, hvx⟩ := List.mem_map.1 hm
    exact get_none hx v hv hvx
  · intro v hv
    rcases List.mem_cons.1 hv with rfl | hv
    · exact ⟨(nomatch ·), fun _ => (nomatch ·), hb, (nomatch ·)⟩
    · exact h.good v hv
  · intro i
    show List.count i (p.heap.next :: p.heap.live) ≤ 1
    rw [hl]
    have := h.once i
    split
    · rename_i hi
      rw [← hi, hf]
      omega
    · omega
  · intro i hi
    show List.count i (p.heap.next :: p.heap.live) = 0
    have hi' : p.heap.next + 1 ≤ i := hi
    rw [hl, if_neg (by omega), h.fresh i (by omega)]
  · intro i
    show List.count i (Own.held _) ≤ List.count i (p.heap.next :: p.heap.live)
    rw [hc, hl]
    have := h.held i
    omega
  · intro hn i
    show List.count i (Own.held _) = List.count i (p.heap.next :: p.heap.live)
    rw [hc, hl, h.all hn i]

/-- A new variable without block. -/
theorem Inv.addNone {c : Cls} {nx : Bool} {p : Prog} (h : Inv c nx p) {x : Nat} (hx : p.get x = none) {o : Obj}
    (hg : Good c nx o) (ho : o.ptr.held = []) : Inv c nx { p with vars := (x, o) :: p.vars } := by
  have hc : ∀ i, (Own.held ((x, o) :: p.vars)).count i = (Own.held p.vars).count i := by
    intro i
    have := held_split x o [] p.vars i
    simp only [List.nil_append] at this
    rw [this, ho]
    simp [Own.held]
  refine ⟨?_, ?_, h.once, h.fresh, ?_, ?_⟩
  · rw [List.map_cons, List.nodup_cons]
    refine ⟨fun hm => ?_, h.keys⟩
    obtain ⟨v, hv, hvx⟩ := List.mem_map.1 hm
    exact get_none hx v hv hvx
  · intro v hv
    rcases List.mem_cons.1 hv with rfl | hv
    · exact hg
    · exact h.good v hv
  · intro i
    show List.count i (Own.held _) ≤ _
    rw [hc]
    exact h.held i
  · intro hn i
    show List.count i (Own.held _) = _
    rw [hc]
    exact h.all hn i

/-- Copies. -/
theorem copy_new {o : Obj} {p : Prog} {b : Bool} (h1 : o.ptr ≠ .wild) (h2 : o.ptr ≠ .null)
    (h3 : ∀ i, o.ptr = .block i → i ∈ p.heap.live) :
    (do
      let q ← malloc
      access o.ptr
      pure { ptr := q, owned := b } : M Heap Obj) p.heap =
      (.ok { ptr := .block p.heap.next, owned := b }, { live := p.heap.next :: p.heap.live, next := p.heap.next + 1 }) := by
  rw [M.bind_ok (show malloc p.heap = _ from rfl),
    M.bind_ok (access_ok h1 h2 (fun i hi => List.mem_cons_of_mem _ (h3 i hi)))]
  rfl

/-- Release the block of a variable, which is removed. -/
theorem Inv.remove {c : Cls} {nx : Bool} {p : Prog} (h : Inv c nx p) {x : Nat} {o : Obj} {l1 l2 : List (Nat × Obj)}
    (hl : p.vars = l1 ++ (x, o) :: l2) {i : Nat} (hi : o.ptr = .block i) :
    Inv c nx { heap := { p.heap with live := p.heap.live.erase i }, vars := l1 ++ l2 } := by
  have hc : ∀ j, (Own.held p.vars).count j = (Own.held (l1 ++ l2)).count j + if i = j then 1 else 0 := by
    intro j
    rw [hl, held_split, hi, count_block, held_append]
    omega
  have hm : i ∈ p.heap.live := h.live (x := x) (by rw [hl]; simp) hi
  have he : ∀ j, (p.heap.live.erase i).count j = p.heap.live.count j - if i = j then 1 else 0 := by
    intro j
    rw [List.count_erase]
    by_cases hij : i = j <;> simp [hij]
  refine ⟨?_, ?_, ?_, ?_, ?_, ?_⟩
  · have := h.keys
    rw [hl] at this
    simp only [List.map_append, List.map_cons] at this ⊢
    exact (nodup_middle.1 this).2
  · intro v hv
    refine h.good v ?_
    rw [hl]
    simp only [List.mem_append, List.mem_cons] at hv ⊢
    rcases hv with hv | hv <;> simp [hv]
  · intro j
    show List.count j (p.heap.live.erase i) ≤ 1
    rw [he]
    have := h.once j
    omega
  · intro j hj
    show List.count j (p.heap.live.erase i) = 0
    rw [he, h.fresh j hj]
    omega
  · intro j
    show List.count j (Own.held (l1 ++ l2)) ≤ List.count j (p.heap.live.erase i)
    have h1 := hc j
    have h2 := h.held j
    rw [he]
    omega
  · intro hn j
    show List.count j (Own.held (l1 ++ l2)) = List.count j (p.heap.live.erase i)
    have h1 := hc j
    have h2 := h.all hn j
    rw [he]
    omega

/-- Remove a variable and keep its block, if it has one. -/
theorem Inv.forget {c : Cls} {nx : Bool} {p : Prog} (h : Inv c nx p) {x : Nat} {o : Obj} {l1 l2 : List (Nat × Obj)}
    (hl : p.vars = l1 ++ (x, o) :: l2) (ho : nx = true → o.ptr.held = []) :
    Inv c nx { p with vars := l1 ++ l2 } := by
  have hc : ∀ j, (Own.held p.vars).count j = (Own.held (l1 ++ l2)).count j + o.ptr.held.count j := by
    intro j
    rw [hl, held_split, held_append]
    omega
  refine ⟨?_, ?_, h.once, h.fresh, ?_, ?_⟩
  · have := h.keys
    rw [hl] at this
    simp only [List.map_append, List.map_cons] at this ⊢
    exact (nodup_middle.1 this).2
  · intro v hv
    refine h.good v ?_
    rw [hl]
    simp only [List.mem_append, List.mem_cons] at hv ⊢
    rcases hv with hv | hv <;> simp [hv]
  · intro j
    show List.count j (Own.held (l1 ++ l2)) ≤ List.count j p.heap.live
    have h1 := hc j
    have h2 := h.held j
    omega
  · intro hn j
    show List.count j (Own.held (l1 ++ l2)) = List.count j p.heap.live
    have h1 := hc j
    have h2 := h.all hn j
    rw [ho hn] at h1
    simp only [List.count_nil] at h1
    omega

/-- A variable gets a new block. -/
theorem Inv.place {c : Cls} {nx : Bool} {h : Heap} {x : Nat} {b : Bool} {l1 l2 : List (Nat × Obj)}
    (hi : Inv c nx { heap := h, vars := l1 ++ l2 }) (h1 : ∀ v ∈ l1, v.1 ≠ x) (h2 : ∀ v ∈ l2, v.1 ≠ x)
    (hb : c = .staticBuffer ∧ nx = false ∨ b = true) :
    Inv c nx { heap := { live := h.next :: h.live, next := h.next + 1 },
               vars := l1 ++ (x, { ptr := .block h.next, owned := b }) :: l2 } := by
  have hn : Prog.get x { heap := h, vars := l1 ++ l2 } = none := by
    unfold Prog.get
    rw [Option.map_eq_none_iff, List.find?_eq_none]
    intro v hv
    rcases List.mem_append.1 hv with hv | hv
    · simpa using h1 v hv
    · simpa using h2 v hv
  have := hi.add hn hb
  have hc : ∀ j, (Own.held (l1 ++ (x, ({ ptr := .block h.next, owned := b } : Obj)) :: l2)).count j =
      (Own.held ((x, ({ ptr := .block h.next, owned := b } : Obj)) :: (l1 ++ l2))).count j := by
    intro j
    have e := held_split x { ptr := .block h.next, owned := b } [] (l1 ++ l2) j
    simp only [List.nil_append] at e
    rw [held_split, e, held_append]
    simp only [Own.held, List.flatMap_nil, List.count_nil]
    omega
  refine ⟨?_, ?_, this.once, this.fresh, ?_, ?_⟩
  · have := this.keys
    simp only [List.map_append, List.map_cons] at this ⊢
    exact nodup_middle.2 (List.nodup_cons.1 this)
  · intro v hv
    refine this.good v ?_
    simp only [List.mem_append, List.mem_cons] at hv ⊢
    rcases hv with hv | hv | hv <;> simp [hv]
  · intro j
    rw [hc]
    exact this.held j
  · intro hn j
    rw [hc]
    exact this.all hn j

theorem free_ok {i : Nat} {h : Heap} (hi : i ∈ h.live) : free (.block i) h = (.ok (), { h with live := h.live.erase i }) := by
  show (if i ∈ h.live then _ else _) = _
  rw [if_pos hi]

theorem freeIf_ok {i : Nat} {h : Heap} (hi : i ∈ h.live) : freeIf (.block i) h = (.ok (), { h with live := h.live.erase i }) := by
  unfold freeIf
  rw [if_pos (nomatch ·), free_ok hi]

theorem Prog.on_ok {α : Type} {m : M Heap α} {f : α → List (Nat × Obj) → List (Nat × Obj)} {p : Prog} {a : α} {h : Heap}
    (hm : m p.heap = (.ok a, h)) : Prog.on m f p = (.ok (), { heap := h, vars := f a p.vars }) := by
  unfold Prog.on
  rw [hm]

/-- The statements allowed: no assignment, no `IStreamIterator` without stream, and, if `nx`, no memory of the
caller. -/
def Allowed (c : Cls) (nx : Bool) : Op → Prop
  | .assign _ _ => False
  | .construct _ k => (c = .istreamIterator → k ≠ .dflt) ∧ (nx = true → k ≠ .extern)
  | _ => True

theorem ptr_cases {c : Cls} {nx : Bool} {o : Obj} (h : Good c nx o) :
    (∃ i, o.ptr = .block i) ∨ o.ptr = .null ∧ c = .state ∨ o.ptr = .ext ∧ c = .staticBuffer ∧ o.owned = false := by
  rcases o with ⟨p, b⟩
  cases p with
  | block i => exact .inl ⟨i, rfl⟩
  | null =>
    refine .inr (.inl ⟨rfl, ?_⟩)
    rcases c <;> first | rfl | exact absurd rfl (h.2.1 (nomatch ·))
  | wild => exact absurd rfl h.1
  | ext => exact .inr (.inr ⟨rfl, h.2.2.2 rfl⟩)

theorem step_ok {c : Cls} {nx : Bool} {p : Prog} (h : Inv c nx p) {op : Op} (ha : Allowed c nx op) :
    ∃ p', step c op p = (.ok (), p') ∧ Inv c nx p' := by
  cases op with
  | construct x k =>
    unfold step
    simp only
    rcases hx : p.get x with _ | o
    · have hnew : ∀ {b : Bool}, (c = .staticBuffer ∧ nx = false ∨ b = true) →
          ∃ p', Prog.on (do let q ← malloc; pure { ptr := q, owned := b } : M Heap Obj) (fun o vs => (x, o) :: vs) p = (.ok (), p') ∧
            Inv c nx p' := fun hb => ⟨_, Prog.on_ok rfl, h.add hx hb⟩
      cases c <;> cases k <;>
        first
        | exact ⟨p, rfl, h⟩
        | exact hnew (.inr rfl)
        | exact absurd rfl (ha.1 rfl)
        | skip
      · have hnx : nx = false := by
          cases nx with
          | false => rfl
          | true => exact absurd rfl (ha.2 rfl)
        exact ⟨_, Prog.on_ok rfl, h.addNone hx ⟨(nomatch ·), fun _ => (nomatch ·), .inl ⟨rfl, hnx⟩, fun _ => ⟨rfl, rfl⟩⟩ rfl⟩
      · exact ⟨_, Prog.on_ok rfl, h.addNone hx ⟨(nomatch ·), fun h => absurd rfl h, .inr rfl, (nomatch ·)⟩ rfl⟩
    · exact ⟨p, rfl, h⟩
  | copy x y =>
    unfold step
    simp only
    rcases hx : p.get x with _ | o
    · rcases hy : p.get y with _ | o
      · exact ⟨p, rfl, h⟩
      · obtain ⟨l1, l2, hl, -, -⟩ := get_some h.keys hy
        have hm : (y, o) ∈ p.vars := by rw [hl]; simp
        have hg : Good c nx o := h.good _ hm
        simp only
        have hb : o.ptr ≠ .null → ∀ {b : Bool}, (c = .staticBuffer ∧ nx = false ∨ b = true) →
            ∃ p', Prog.on (do
              let q ← malloc
              access o.ptr
              pure { ptr := q, owned := b } : M Heap Obj) (fun o vs => (x, o) :: vs) p = (.ok (), p') ∧ Inv c nx p' :=
          fun hn b hb => ⟨_, Prog.on_ok (copy_new hg.1 hn (fun i hi => h.live hm hi)), h.add hx hb⟩
        cases c with
        | istreamIterator => exact hb (hg.2.1 (nomatch ·)) (.inr rfl)
        | tagStack => exact hb (hg.2.1 (nomatch ·)) (.inr rfl)
        | staticBuffer => exact hb (hg.2.1 (nomatch ·)) hg.2.2.1
        | state =>
          simp only [copy]
          by_cases hn : o.ptr = .null
          · rw [if_pos hn]
            exact ⟨_, Prog.on_ok rfl, h.addNone hx ⟨(nomatch ·), fun h => absurd rfl h, .inr rfl, (nomatch ·)⟩ rfl⟩
          · rw [if_neg hn]
            exact hb hn (.inr rfl)
    · exact ⟨p, rfl, h⟩
  | assign x y => exact ha.elim
  | renew x =>
    unfold step
    simp only
    rcases hx : p.get x with _ | o
    · exact ⟨p, rfl, h⟩
    · obtain ⟨l1, l2, hl, hx1, hx2⟩ := get_some h.keys hx
      have hm : (x, o) ∈ p.vars := by rw [hl]; simp
      have hg : Good c nx o := h.good _ hm
      have hsame : set x o p.vars = p.vars := by rw [hl, set_split hx1 hx2]
      simp only
      cases c with
      | istreamIterator => exact ⟨_, Prog.on_ok rfl, by rw [hsame]; exact h⟩
      | staticBuffer => exact ⟨_, Prog.on_ok rfl, by rw [hsame]; exact h⟩
      | tagStack =>
        obtain ⟨i, hi⟩ | ⟨-, hc⟩ | ⟨-, hc, -⟩ := ptr_cases hg
        · have hil := h.live hm hi
          refine ⟨_, Prog.on_ok (a := { o with ptr := .block p.heap.next })
            (h := { live := (p.heap.next :: p.heap.live).erase i, next := p.heap.next + 1 }) ?_, ?_⟩
          · simp only [renew]
            rw [M.bind_ok (access_ok hg.1 (hg.2.1 (nomatch ·)) (fun j hj => h.live hm hj)),
              M.bind_ok (show malloc p.heap = _ from rfl), hi, M.bind_ok (free_ok (List.mem_cons_of_mem _ hil))]
            rfl
          · have hne : p.heap.next ≠ i := by
              intro he
              have := h.fresh i (by omega)
              exact absurd (List.count_pos_iff.2 hil) (by omega)
            have := (h.remove hl hi).place (b := o.owned) hx1 hx2 hg.2.2.1
            rw [hl, set_split hx1 hx2, List.erase_cons_tail (by simpa using hne)]
            exact this
        · cases hc
        · cases hc
      | state =>
        obtain ⟨i, hi⟩ | ⟨hn, -⟩ | ⟨-, hc, -⟩ := ptr_cases hg
        · have hil := h.live hm hi
          refine ⟨_, Prog.on_ok (a := { o with ptr := .block p.heap.next })
            (h := { live := p.heap.next :: p.heap.live.erase i, next := p.heap.next + 1 }) ?_, ?_⟩
          · simp only [renew]
            rw [hi, M.bind_ok (freeIf_ok hil)]
            rfl
          · rw [hl, set_split hx1 hx2]
            exact (h.remove hl hi).place (b := o.owned) hx1 hx2 hg.2.2.1
        · refine ⟨_, Prog.on_ok (a := { o with ptr := .block p.heap.next })
            (h := { live := p.heap.next :: p.heap.live, next := p.heap.next + 1 }) ?_, ?_⟩
          · simp only [renew]
            rw [hn, M.bind_ok (show freeIf .null p.heap = (.ok (), p.heap) from rfl)]
            rfl
          · rw [hl, set_split hx1 hx2]
            exact (h.forget hl (fun _ => by rw [hn]; rfl)).place (b := o.owned) hx1 hx2 hg.2.2.1
        · cases hc
  | use x =>
    unfold step
    simp only
    rcases hx : p.get x with _ | o
    · exact ⟨p, rfl, h⟩
    · obtain ⟨l1, l2, hl, hx1, hx2⟩ := get_some h.keys hx
      have hm : (x, o) ∈ p.vars := by rw [hl]; simp
      have hg : Good c nx o := h.good _ hm
      refine ⟨_, Prog.on_ok (a := ()) (h := p.heap) ?_, h⟩
      have hac : o.ptr ≠ .null → access o.ptr p.heap = (.ok (), p.heap) :=
        fun hn => access_ok hg.1 hn (fun i hi => h.live hm hi)
      cases c with
      | state =>
        unfold use
        simp only
        split
        · rfl
        · exact hac ‹_›
      | istreamIterator => exact hac (hg.2.1 (nomatch ·))
      | tagStack => exact hac (hg.2.1 (nomatch ·))
      | staticBuffer => exact hac (hg.2.1 (nomatch ·))
  | destroy x =>
    unfold step
    simp only
    rcases hx : p.get x with _ | o
    · exact ⟨p, rfl, h⟩
    · obtain ⟨l1, l2, hl, hx1, hx2⟩ := get_some h.keys hx
      have hm : (x, o) ∈ p.vars := by rw [hl]; simp
      have hg : Good c nx o := h.good _ hm
      simp only
      have hf : List.filter (fun v => v.1 != x) p.vars = l1 ++ l2 := by rw [hl, filter_split hx1 hx2]
      obtain ⟨i, hi⟩ | ⟨hn, hc⟩ | ⟨he, hc, ho⟩ := ptr_cases hg
      · have hil := h.live hm hi
        by_cases hfree : c = .staticBuffer ∧ o.owned = false
        · obtain ⟨rfl, ho⟩ := hfree
          refine ⟨_, Prog.on_ok (a := ()) (h := p.heap) ?_, ?_⟩
          · simp only [destroy]
            rw [if_neg (by rw [ho]; exact fun h => nomatch h)]
            rfl
          · rw [hf]
            refine h.forget hl fun hnx => ?_
            rcases hg.2.2.1 with ⟨-, h0⟩ | h0
            · rw [h0] at hnx
              cases hnx
            · rw [ho] at h0
              cases h0
        · refine ⟨_, Prog.on_ok (a := ()) (h := { p.heap with live := p.heap.live.erase i }) ?_, ?_⟩
          · cases c with
            | istreamIterator => simp only [destroy]; rw [hi, free_ok hil]
            | tagStack => simp only [destroy]; rw [hi, freeIf_ok hil]
            | state => simp only [destroy]; rw [hi, freeIf_ok hil]
            | staticBuffer =>
              have : o.owned = true := by
                cases ho : o.owned with
                | true => rfl
                | false => exact absurd ⟨rfl, ho⟩ hfree
              simp only [destroy]
              rw [hi, if_pos this, freeIf_ok hil]
          · rw [hf]
            exact h.remove hl hi
      · subst hc
        refine ⟨_, Prog.on_ok (a := ()) (h := p.heap) ?_, ?_⟩
        · simp only [destroy]
          rw [hn]
          rfl
        · rw [hf]
          exact h.forget hl fun _ => by rw [hn]; rfl
      · subst hc
        refine ⟨_, Prog.on_ok (a := ()) (h := p.heap) ?_, ?_⟩
        · simp only [destroy]
          rw [if_neg (by rw [ho]; exact fun h => nomatch h)]
          rfl
        · rw [hf]
          exact h.forget hl fun _ => by rw [he]; rfl

theorem run_ok {c : Cls} {nx : Bool} : ∀ (ops : List Op) {p : Prog}, Inv c nx p → (∀ op ∈ ops, Allowed c nx op) →
    ∃ p', run c ops p = (.ok (), p') ∧ Inv c nx p'
  | [], p, h, _ => ⟨p, rfl, h⟩
  | op :: ops, p, h, ha => by
    obtain ⟨p1, h1, h2⟩ := step_ok h (ha op (List.mem_cons_self ..))
    obtain ⟨p2, h3, h4⟩ := run_ok ops h2 fun o ho => ha o (List.mem_cons_of_mem _ ho)
    refine ⟨p2, ?_, h4⟩
    unfold run
    rw [M.bind_ok h1, h3]

theorem Inv.start (c : Cls) (nx : Bool) : Inv c nx .start :=
  ⟨List.nodup_nil, fun v hv => (nomatch hv), fun _ => Nat.zero_le 1, fun _ _ => rfl, fun _ => Nat.le_refl _, fun _ _ => rfl⟩

end TW.Own
