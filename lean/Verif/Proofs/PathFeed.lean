import Verif.Proofs.PathRoutes
import Verif.Proofs.PathQuiet

/-!
# Building an automaton and feeding a selector
-/

namespace TW.Path

open Spec.Path (Step CStep Cond Open Query Final Item routes reaches answers after grown Tidy HeaderFree)

variable {a : Atm} {lab : List (List Edge)} {key : List Byte} {s : Sel} {ty : Int} {G : List Edge → Prop}
  {q : List Open} {R : List (List Nat)} {B : List Edge → Nat}

/-- A new selector. -/
theorem init_inv (g : Goal a lab ty G) : ∃ s R, Sel.mk' a = .ok s ∧ Inv a lab ty G bare .start [] R s ∧
    Rg a ty .start R [(0, 0)] s.tokens := by
  have main : ∀ (h : Option Nat) (l : List Nat), Chain a h l → l.Nodup → l.length ≤ a.length →
      (∀ t, lab[t]? = some [] → t ∈ l) → (∀ t ∈ l, lab[t]? = some []) →
      h = (if 0 < a.length then some 0 else none) → ∃ s R, Sel.mk' a = .ok s ∧ Inv a lab ty G bare .start [] R s ∧
        Rg a ty .start R [(0, 0)] s.tokens := by
    intro h l c nd hl h1 h2 hh
    obtain ⟨s, e1, e2, -⟩ := expand_run c (s := { atm := a }) (n := a.length + 1) rfl (by omega)
    refine ⟨s, [l.filter (!trig a ·)], ?_, ?_, ⟨⟨fun k _ _ tk st k1 k2 _ _ => ?_, trivial⟩, (fun _ hx => nomatch hx), fun _ => ⟨[], rfl⟩⟩⟩
    rotate_right
    · obtain ⟨st', m1, m2⟩ := e2.fresh (Nat.le_refl _) k tk (Nat.zero_le _) k1
      rw [k2] at m1
      cases m1
      rw [m2]
      unfold num
      cases st.core.follow <;> rfl
    · unfold Sel.mk'
      rw [← hh, e1]
    · refine ⟨e2.atm, e2.tok (fun tk htk => nomatch htk), ?_, ?_, ?_, ?_, ?_, ?_, ?_, ?_, ?_⟩
      · rw [e2.idx]; simp [Sel.idx]
      · rw [e2.follows, e2.idx]; simp [Sel.idx]
      · rw [e2.stk]; rfl
      · refine ⟨fun t L k1 k2 k3 => ?_, fun t M L ed k1 k2 _ => ?_, rfl⟩
        rotate_left
        · apply count_filter_le
          rw [List.count_eq_zero]
          intro hm
          rw [h2 t hm, k2.lab] at k1
          simp at k1
        rw [List.count_filter (by rw [k3]; rfl)]
        rcases nil_or_snoc L with rfl | ⟨L, e, rfl⟩
        · rw [nd.count, if_pos (h1 t k1)]; rfl
        · rw [W_root, show bare (L ++ [e]) = 0 from if_neg (by simp), List.count_eq_zero]
          intro hm
          rw [h2 t hm] at k1
          simp at k1
      · rw [e2.type, if_neg (fun h : ElementType.Content = .OpenTag => nomatch h), e2.from']; rfl
      · intro x hx
        rw [e2.triggers] at hx
        simp only [List.append_nil, List.mem_reverse, List.mem_map] at hx
        obtain ⟨t, k1, rfl⟩ := hx
        obtain ⟨k2, k3⟩ := List.mem_filter.1 k1
        refine ⟨trig_typ k3, fun k4 => ?_⟩
        obtain ⟨st, hst⟩ : ∃ st, a[t]? = some st := ⟨_, List.getElem?_eq_getElem (c.mem_lt t k2)⟩
        unfold typ at k4
        rw [hst] at k4
        unfold trig at k3
        rw [hst] at k3
        obtain ⟨L, k5, ⟨-, ⟨-, k6⟩ | ⟨L', e, k6, -⟩⟩ | ⟨k6, -⟩ | ⟨k6, -⟩⟩ := g.out t st hst k4
        · rw [h2 t k2] at k5
          exact k6 (Option.some.inj k5).symm
        · rw [h2 t k2, k6] at k5
          simp at k5
        · simp only [k6, Bool.and_eq_true] at k3
          exact absurd k3.1 (by decide)
        · simp only [k6, Bool.and_eq_true] at k3
          exact absurd k3.1 (by decide)
      · intro j st t k1 k2
        have new := fun hj : j ∈ l.filter (!trig a ·) => e2.cover j st t (List.mem_filter.1 hj).1 k1 k2
        refine ⟨fun hj => (new hj).1, fun hj hf => ?_⟩
        rcases hj with hj | hj
        · exact ⟨(new hj).1, (new hj).2 hf⟩
        · cases hj
      · have new : ∀ (k : Nat) (tk : Token) (st : State), s.tokens[k]? = some tk → a[tk.stateidx]? = some st → tk.core = st.core := by
          intro k tk st k2 k3
          obtain ⟨st', m1, m2⟩ := e2.fresh (Nat.le_refl _) k tk (Nat.zero_le _) k2
          rw [k3] at m1
          cases m1
          exact m2
        exact ⟨fun _ k tk st _ k2 k3 _ _ => new k tk st k2 k3, fun _ k tk st k2 k3 _ _ _ => new k tk st k2 k3, fun name hn => nomatch hn⟩
      · intro hn sc hsc
        rw [e2.stk] at hsc
        obtain rfl : sc = s.scope := by simpa using hsc
        have none : ∀ h : s.scope.mask.matches .Content = true ∨ s.scope.followMask.matches .Content = true, False := by
          intro h
          rcases e2.only .Content h with k | k | ⟨j, k1, st, k2, k3⟩
          · exact absurd (show ({} : Mask).matches .Content = true from k) (by decide)
          · exact absurd (show ({} : Mask).matches .Content = true from k) (by decide)
          · rw [hn j st k2] at k3
            cases k3
        exact ⟨Bool.eq_false_iff.2 fun k => none (.inl k), Bool.eq_false_iff.2 fun k => none (.inr k)⟩
  by_cases ha : 0 < a.length
  · obtain ⟨l, c, -, nd, hl⟩ := g.ok.chain ha
    refine main (some 0) l c nd hl (g.ok.root_mem c) ?_ (by rw [if_pos ha])
    intro t ht
    obtain ⟨i, k1, k2⟩ := g.ok.chain_lab c t ht
    cases k1
    rw [k2, g.ok.root ha]
  · refine main none [] .nil List.nodup_nil (Nat.zero_le _) ?_ (fun t ht => nomatch ht) (by rw [if_neg ha])
    intro t ht
    have := (List.getElem?_eq_some_iff.1 ht).1
    rw [g.ok.len] at this
    omega

/-- Without a header at the begin. -/
theorem Inv.rest (h : Inv a lab ty G B .start q R s) : Inv a lab ty G B .off q R s :=
  ⟨h.atm, h.tok, h.idx, h.follows, h.stk, h.cnt, h.from', h.trg, h.cover, ⟨fun hne => (hne rfl).elim, h.att.deep, fun _ hn => nomatch hn⟩, h.quiet⟩

theorem Rg.rest {cs : List (Nat × Nat)} {toks : List Token} (h : Rg a ty .start R cs toks) : Rg a ty .off R cs toks :=
  ⟨h.lev, (fun _ hx => nomatch hx), fun hx => (hx rfl).elim⟩

/-- The reports over a stream. -/
def amounts (os : List (List Edge × Core)) (B : List Edge → Nat) (ph : Ph) (q : List Open) : List Item → List Nat
  | [] => []
  | it :: items => (os.map (amount B it.1 it.2 ph q)).sum ::
      amounts os (baseAfter B ph q it.1 it.2) (ph.next it.1 it.2) (afterRev ph q it.1 it.2) items

/-- The values of attributes are where they belong. -/
def PhOks (r : Prop) (B : List Edge → Nat) (ph : Ph) (q : List Open) : List Item → Prop
  | [] => True
  | it :: items => PhOk r B ph q it.1 ∧ PhOks r (baseAfter B ph q it.1 it.2) (ph.next it.1 it.2) (afterRev ph q it.1 it.2) items

theorem Ph.next_ne (ph : Ph) (type : ElementType) (key : List Byte) : ph.next type key ≠ .start := by
  cases ph <;> cases type <;> exact fun h => nomatch h

theorem baseAfter_off (q : List Open) (type : ElementType) (key : List Byte) : baseAfter B .off q type key = B := by
  cases q with
  | nil =>
    cases type <;> rfl
  | cons x q => rfl

/-- Outside of the elements there are no attributes. -/
theorem off_next {ph : Ph} (h : q = [] → ph = .off) (type : ElementType) (key : List Byte) :
    baseAfter B ph q type key = B ∧ (afterRev ph q type key = [] → ph.next type key = .off) := by
  refine ⟨?_, fun hq => ?_⟩
  · cases q with
    | nil => rw [h rfl]; exact baseAfter_off ..
    | cons x q => rfl
  · by_cases h1 : type = .OpenTag
    · subst h1; cases hq
    by_cases h2 : type = .CloseTag
    · subst h2; cases ph <;> rfl
    by_cases h3 : type = .CloseTagIm
    · subst h3; cases ph <;> rfl
    have e1 : afterRev ph q type key = attRev ph q type key := by
      cases type <;> first | rfl | exact (h1 rfl).elim | exact (h2 rfl).elim | exact (h3 rfl).elim
    rw [e1] at hq
    have : q = [] := by
      unfold attRev at hq
      split at hq
      · cases hq
      · cases hq
      · exact hq
    rw [h this]
    cases type <;> first | rfl | exact (h1 rfl).elim

theorem after_rev (ph : Ph) (q : List Open) (it : Item) :
    after (q.map (·.name)).reverse it = ((afterRev ph q it.1 it.2).map (·.name)).reverse := by
  obtain ⟨type, key⟩ := it
  have att : ∀ ty : ElementType, (attRev ph q ty key).map (·.name) = q.map (·.name) := by
    intro ty
    unfold attRev
    split <;> rfl
  have other : type ≠ .OpenTag → type ≠ .CloseTag → type ≠ .CloseTagIm →
      after (q.map (·.name)).reverse (type, key) = ((afterRev ph q type key).map (·.name)).reverse := by
    intro h1 h2 h3
    have e1 : afterRev ph q type key = attRev ph q type key := by
      cases type <;> first | rfl | exact (h1 rfl).elim | exact (h2 rfl).elim | exact (h3 rfl).elim
    have e2 : after (q.map (·.name)).reverse (type, key) = (q.map (·.name)).reverse := by
      cases type <;> first | rfl | exact (h1 rfl).elim | exact (h2 rfl).elim | exact (h3 rfl).elim
    rw [e1, e2, att]
  by_cases h1 : type = .OpenTag
  · subst h1
    show (q.map (·.name)).reverse ++ [key] = ((⟨key, []⟩ :: q : List Open).map (·.name)).reverse
    simp
  by_cases h2 : type = .CloseTag
  · subst h2
    show (q.map (·.name)).reverse.dropLast = (q.tail.map (·.name)).reverse
    cases q <;> simp
  by_cases h3 : type = .CloseTagIm
  · subst h3
    show (q.map (·.name)).reverse.dropLast = (q.tail.map (·.name)).reverse
    cases q <;> simp
  exact other h1 h2 h3

theorem grown_names (path : List Open) (prev : Option Item) (it : Item) :
    (grown path prev it).map (·.name) = after (path.map (·.name)) it := by
  obtain ⟨type, key⟩ := it
  have hv : (grown path prev (.TagAttribValue, key)).map (·.name) = path.map (·.name) := by
    unfold grown
    split
    · rename_i h; cases h
    · rename_i h; cases h
    · rename_i h; cases h
    · split
      · rename_i x hx
        obtain ⟨l, rfl⟩ : ∃ l, path = l ++ [x] := by
          rw [List.getLast?_eq_some_iff] at hx
          exact hx
        simp
      · rfl
    · rfl
  cases type <;> first | exact hv | rfl | simp [grown, after]

/-- The headers are no tags. -/
def HdrOk (G : List Edge → Prop) : (List Edge → Nat) → Ph → List Open → List Item → Prop
  | _, _, _, [] => True
  | B, ph, q, it :: items => (it.1 = .HeaderStart → ∀ L e, G (L ++ [e]) → e.mask = tagMask → accepts e.key it.2 →
        q = [] ∧ (ph = .start ∨ B L = 0)) ∧
      HdrOk G (baseAfter B ph q it.1 it.2) (ph.next it.1 it.2) (afterRev ph q it.1 it.2) items

theorem Inv.feed (g : Goal a lab ty G) (hf : Flat a ty) (items : List Item) : ∀ {B ph q R s}, Inv a lab ty G B ph q R s →
    HdrOk G B ph q items → (Asks a lab ty G → PhOks (RootAsk a lab ty) B ph q items) → (q ≠ [] → ph ≠ .start) →
    ∃ N rss s', (∀ n, N ≤ n → Sel.feed n items s = (.ok rss, s')) ∧
      rss.map (·.count ty) = amounts (outs a lab ty) B ph q items := by
  induction items with
  | nil => intro B ph q R s h _ _ _; exact ⟨0, [], s, fun _ _ => rfl, rfl⟩
  | cons it items ih =>
    intro B ph q R s h hh hp hs
    obtain ⟨type, key⟩ := it
    obtain ⟨N, rs, s1, R1, h1, h2, h3⟩ := h.item g hf type key hh.1 (fun k => (hp k).1) hs
    obtain ⟨N2, rss, s2, h4, h5⟩ := ih h2 hh.2 (fun k => (hp k).2) (fun _ => Ph.next_ne _ _ _)
    refine ⟨max N N2, rs :: rss, s2, ?_, ?_⟩
    · intro n hn
      unfold Sel.feed
      rw [M.bind_ok (h1 n (by omega)), M.bind_ok (h4 n (by omega))]
      rfl
    · rw [List.map_cons, h5, h3]
      rfl

/-! ## Building -/

/-- A definition: a query or any other sequence of calls. -/
inductive Def where
  | query (x : Query)
  | other (cs : List PElem.Call)

def Def.calls : Def → List PElem.Call
  | .query x => x.calls
  | .other cs => cs

/-- The queries of the definitions. -/
def queries : List Def → List Query
  | [] => []
  | .query x :: ds => x :: queries ds
  | .other _ :: ds => queries ds

/-- The name is its own key. -/
def SelfKey (e : Enc) (n : Nat) (name : Option (List Byte)) : Prop :=
  ∀ nm, name = some nm → nameKey e n nm = .ok nm ∧ nm ≠ []

theorem SelfKey.ok {e : Enc} {n : Nat} {name : Option (List Byte)} (h : SelfKey e n name) : NameOk e n name :=
  fun nm hn => ⟨nm, h nm hn⟩

theorem SelfKey.keyOf {e : Enc} {n : Nat} {name : Option (List Byte)} (h : SelfKey e n name) : Path.keyOf e n name = name := by
  cases name with
  | none => rfl
  | some nm => unfold Path.keyOf; simp only []; rw [(h nm rfl).1]

/-- The value is its own key, and it is not empty; but if `E`, no value is missing. -/
def SelfValue (E : Prop) (e : Enc) (n : Nat) : Option (List Byte) → Prop
  | none => ¬ E
  | some v => nameKey e n v = .ok v ∧ (v = [] → E)

theorem SelfValue.ok {E : Prop} {e : Enc} {n : Nat} {value : Option (List Byte)} (h : SelfValue E e n value) : ValueOk E e n value := by
  cases value with
  | none => exact fun k => h k.1
  | some v => exact ⟨v, h.1, fun k => ⟨h.2 k, rfl⟩⟩

theorem SelfValue.keyOf {E : Prop} {e : Enc} {n : Nat} {value : Option (List Byte)} (h : SelfValue E e n value) : Path.keyOf e n value = value := by
  cases value with
  | none => rfl
  | some nm => unfold Path.keyOf; simp only []; rw [h.1]

theorem SelfKey.value {E : Prop} {e : Enc} {n : Nat} {value : Option (List Byte)} (h : SelfKey e n value) (hv : value = none → ¬ E) :
    SelfValue E e n value := by
  cases value with
  | none => exact hv rfl
  | some nm => exact ⟨(h nm rfl).1, fun k => ((h nm rfl).2 k).elim⟩

/-- The names and values of a query have keys. -/
def QueryFits (E : Prop) (e : Enc) (n : Nat) (x : Query) : Prop :=
  (∀ s ∈ x.steps, StepOk E e n s) ∧ ∀ d name, x.final = .attribute d name → NameOk e n name

/-- What is required from a query: the names and values are their keys. -/
def QueryOk (E : Prop) (e : Enc) (n : Nat) (x : Query) : Prop :=
  (∀ s ∈ x.steps, SelfKey e n s.name ∧ ∀ c ∈ s.conds, SelfKey e n c.name ∧ SelfValue E e n c.value) ∧
    ∀ d name, x.final = .attribute d name → SelfKey e n name

theorem QueryOk.fits {E : Prop} {e : Enc} {n : Nat} {x : Query} (h : QueryOk E e n x) : QueryFits E e n x :=
  ⟨fun s hs => ⟨(h.1 s hs).1.ok, fun c hc => ⟨((h.1 s hs).2 c hc).1.ok, ((h.1 s hs).2 c hc).2.ok⟩⟩, fun d name hf => (h.2 d name hf).ok⟩

theorem QueryOk.keyed {E : Prop} {e : Enc} {n : Nat} {x : Query} (h : QueryOk E e n x) : Path.keyed e n x = x := by
  obtain ⟨ss, f, ty⟩ := x
  obtain ⟨h1, h2⟩ := h
  unfold Path.keyed
  congr 1
  · refine (List.map_congr_left (g := id) fun s hs => ?_).trans (List.map_id _)
    obtain ⟨⟨d, nm⟩, cs⟩ := s
    obtain ⟨k1, k2⟩ := h1 _ hs
    unfold keyedStep
    have hc : cs.map (keyedCond e n) = cs := by
      refine (List.map_congr_left (g := id) fun c hc => ?_).trans (List.map_id _)
      obtain ⟨a, v⟩ := c
      obtain ⟨k3, k4⟩ := k2 _ hc
      unfold keyedCond
      simp only [k3.keyOf, k4.keyOf, id]
    simp only [k1.keyOf, hc, id]
  · cases f with
    | «attribute» d name => simp only [keyedFinal, (h2 d name rfl).keyOf]
    | _ => rfl

/-- The definition can be added. -/
def DefFits (E : Prop) (e : Enc) (n : Nat) (ty : Int) : Def → Prop
  | .query x => QueryFits E e n x
  | .other cs => .assign ty ∉ cs ∧ ∀ c ∈ cs, NamesOk E e n c

/-- What is required from a definition. -/
def DefOk (E : Prop) (e : Enc) (n : Nat) (ty : Int) : Def → Prop
  | .query x => QueryOk E e n x
  | .other cs => .assign ty ∉ cs ∧ ∀ c ∈ cs, NamesOk E e n c

theorem DefOk.fits {E : Prop} {e : Enc} {n : Nat} {ty : Int} {d : Def} (h : DefOk E e n ty d) : DefFits E e n ty d := by
  cases d with
  | query x => exact QueryOk.fits h
  | other cs => exact h

theorem At.reset {E : Prop} {p : PElem} {L : List Edge} (h : At E a lab p L) : At E a lab ({} : PElem) [] := by
  refine ⟨h.ok, h.ne, ?_⟩
  rcases h.pos with ⟨h1, h2, -⟩ | h1
  · exact .inl ⟨h1, h2, rfl, rfl⟩
  · right
    apply h.ok.root
    rw [← h.ok.len]
    have := (List.getElem?_eq_some_iff.1 h1).1
    omega

theorem build_spec {E : Prop} {e : Enc} {n : Nat} (ds : List Def) : ∀ {a lab}, At E a lab {} [] → ty ≠ 0 → (∀ d ∈ ds, DefFits E e n ty d) →
    ∃ a' lab', build e n (ds.map Def.calls) a = (.ok (), a') ∧ At E a' lab' {} [] ∧
      outs a' lab' ty = outs a lab ty ++
        ((queries ds).filter (·.type = ty)).map fun x => (labelOf (keyed e n x), coreOf (keyed e n x)) := by
  induction ds with
  | nil => intro a lab h _ _; exact ⟨a, lab, rfl, h, by simp [queries]⟩
  | cons d ds ih =>
    intro a lab h hty hd
    have hd0 := hd d (List.mem_cons_self ..)
    cases d with
    | query x =>
      obtain ⟨p', a1, lab1, L', h1, h2, h3⟩ := h.query (x := x) (e := e) (n := n) hd0.1 hd0.2
      obtain ⟨a2, lab2, h4, h5, h6⟩ := ih h2.reset hty (fun d hd' => hd d (List.mem_cons_of_mem _ hd'))
      refine ⟨a2, lab2, ?_, h5, ?_⟩
      · show (PElem.calls e n {} x.calls >>= fun _ => build e n (ds.map Def.calls)) a = _
        rw [M.bind_ok h1]
        exact h4
      · rw [h6, h3 ty hty, List.append_assoc]
        congr 1
        simp only [queries]
        by_cases hx : x.type = ty
        · simp [hx, coreOf_keyed]
        · simp [hx]
    | other cs =>
      obtain ⟨p', a1, lab1, L', h1, h2, h3⟩ := h.calls (e := e) (n := n) hd0.2
      obtain ⟨a2, lab2, h4, h5, h6⟩ := ih h2.reset hty (fun d hd' => hd d (List.mem_cons_of_mem _ hd'))
      refine ⟨a2, lab2, ?_, h5, ?_⟩
      · show (PElem.calls e n {} cs >>= fun _ => build e n (ds.map Def.calls)) a = _
        rw [M.bind_ok h1]
        exact h4
      · rw [h6, h3 ty hty hd0.1]
        rfl

/-- Members of `outs`. -/
theorem mem_outs (ok : Ok a lab) {j : Nat} {st : State} (h : a[j]? = some st) (ht : st.core.typeidx = ty) :
    ∃ L, lab[j]? = some L ∧ (L, st.core) ∈ outs a lab ty := by
  have hj := (List.getElem?_eq_some_iff.1 h).1
  obtain ⟨L, hL⟩ : ∃ L, lab[j]? = some L := ⟨_, List.getElem?_eq_getElem (by rw [ok.len]; exact hj)⟩
  refine ⟨L, hL, ?_⟩
  unfold outs
  rw [List.mem_filterMap]
  refine ⟨(st, L), ?_, by simp [ht]⟩
  apply List.mem_of_getElem? (i := j)
  rw [List.getElem?_zip_eq_some]
  exact ⟨h, hL⟩

/-- The beginnings of the queries with the type, at the steps or the conditions. -/
def Begins (ty : Int) (xs : List Query) (L : List Edge) : Prop :=
  ∃ x ∈ xs, x.type = ty ∧ L <+: x.steps.flatMap stepEdges ∧ ∀ L' ed, L = L' ++ [ed] → ed.mask ≠ attrMask

theorem mem_queries {ds : List Def} {x : Query} (h : x ∈ queries ds) : .query x ∈ ds := by
  induction ds with
  | nil => cases h
  | cons d ds ih =>
    cases d with
    | query y =>
      rcases List.mem_cons.1 h with rfl | h
      · exact List.mem_cons_self ..
      · exact List.mem_cons_of_mem _ (ih h)
    | other cs => exact List.mem_cons_of_mem _ (ih h)

/-- Where in a tag an item comes, by the item before. -/
def PhFor (prev : Option Item) (ph : Ph) : Prop :=
  ∀ p, prev = some p → (p.1 = .OpenTag → ph = .tag) ∧ (p.1 = .TagAttribName → ph = .named p.2) ∧
    (p.1 = .TagAttribValue → ph = .tag)

theorem PhFor.next {prev : Option Item} {ph : Ph} (h : PhFor prev ph) (it : Item)
    (h1 : it.1 = .TagAttribName → ∃ p, prev = some p ∧ (p.1 = .OpenTag ∨ p.1 = .TagAttribValue))
    (h2 : it.1 = .TagAttribValue → ∃ p, prev = some p ∧ p.1 = .TagAttribName) :
    PhFor (some it) (ph.next it.1 it.2) := by
  intro p hp
  cases hp
  obtain ⟨type, key⟩ := it
  refine ⟨fun k => ?_, fun k => ?_, fun k => ?_⟩
  · cases k
    cases ph <;> rfl
  · cases k
    obtain ⟨p, k1, k2⟩ := h1 rfl
    have : ph = .tag := by
      rcases k2 with k2 | k2
      · exact (h p k1).1 k2
      · exact (h p k1).2.2 k2
    rw [this]; rfl
  · cases k
    obtain ⟨p, k1, k2⟩ := h2 rfl
    rw [(h p k1).2.1 k2]; rfl

theorem tidy_ok {r : Prop} (items : List Item) : ∀ {prev : Option Item} {ph : Ph} {q : List Open}, (r → ∀ it ∈ items, it.1 ≠ .HeaderAttribValue) →
    PhFor prev ph → (q = [] → ph = .off) →
    Tidy (q.map (·.name)).reverse prev items → PhOks r bare ph q items := by
  induction items with
  | nil => intro _ _ _ _ _ _ _; trivial
  | cons it items ih =>
    intro prev ph q hr h hq ht
    obtain ⟨h1, h2, h3, h4⟩ := ht
    refine ⟨⟨fun k => ?_, fun k => ?_⟩, ?_⟩
    · obtain ⟨p, k1, k2⟩ := h2 k
      exact ⟨p.2, (h p k1).2.1 k2⟩
    · have : q = [] := by simpa using h3 (.inl k)
      right
      rw [hq this, this]
      exact ⟨(fun _ hx => nomatch hx), rfl, fun hx => hr hx it (List.mem_cons_self ..) k, fun L hL => if_neg hL⟩
    · rw [after_rev ph] at h4
      rw [(off_next hq it.1 it.2).1]
      exact ih (fun hx it hit => hr hx it (List.mem_cons_of_mem _ hit)) (h.next it h1 h2) (off_next (B := bare) hq it.1 it.2).2 h4

theorem grown_rev {prev : Option Item} {ph : Ph} (h : PhFor prev ph) (q : List Open) (it : Item)
    (h2 : it.1 = .TagAttribValue → ∃ p, prev = some p ∧ p.1 = .TagAttribName) (h3 : it.1 = .HeaderAttribValue → q = []) :
    grown q.reverse prev it = (afterRev ph q it.1 it.2).reverse := by
  obtain ⟨type, key⟩ := it
  by_cases ht : type = .TagAttribValue
  · subst ht
    obtain ⟨⟨t, nm⟩, k1, k2⟩ := h2 rfl
    cases k2
    have := (h _ k1).2.1 rfl
    subst this
    subst k1
    cases q with
    | nil => rfl
    | cons x q => simp [grown, afterRev, attRev]
  · cases type <;> first | exact (ht rfl).elim | skip
    all_goals first | rfl | skip
    · rw [h3 rfl]
      cases ph <;> rfl
    · simp [grown, afterRev]
    · cases q <;> simp [grown, afterRev]
    · cases q <;> simp [grown, afterRev]

/-! ## The transitions of steps -/

/-- The transitions end with the one to an attribute. -/
def EndsAttr (L : List Edge) : Prop := ∃ L' ed, L = L' ++ [ed] ∧ ed.mask = attrMask

/-- The transitions are those of tags, and pairs of those of attributes and their values, not at the begin. -/
def Shape (F : List Edge) : Prop := ∀ L ed, L ++ [ed] <+: F →
  (ed.mask = tagMask ∧ ¬ EndsAttr L) ∨ (ed.mask = attrMask ∧ ed.follow = false ∧ L ≠ [] ∧ ¬ EndsAttr L) ∨
  (ed.mask = valMask ∧ ed.follow = false ∧ EndsAttr L)

theorem endsAttr_snoc (L : List Edge) (ed : Edge) : EndsAttr (L ++ [ed]) ↔ ed.mask = attrMask := by
  constructor
  · rintro ⟨L', ed', h, h'⟩
    obtain ⟨-, h⟩ := List.append_inj_right' h rfl |> fun h => (⟨rfl, List.cons.inj h |>.1⟩ : True = True ∧ ed = ed')
    rw [h, h']
  · intro h
    exact ⟨L, ed, rfl, h⟩

theorem Shape.snoc {F : List Edge} (h : Shape F) {x : Edge}
    (hx : (x.mask = tagMask ∧ ¬ EndsAttr F) ∨ (x.mask = attrMask ∧ x.follow = false ∧ F ≠ [] ∧ ¬ EndsAttr F) ∨
      (x.mask = valMask ∧ x.follow = false ∧ EndsAttr F)) : Shape (F ++ [x]) := by
  intro L ed hp
  rw [List.prefix_concat_iff] at hp
  rcases hp with hp | hp
  · have h1 := List.append_inj_left' hp rfl
    have h2 := (List.cons.inj (List.append_inj_right' hp rfl)).1
    rw [h1, h2]
    exact hx
  · exact h L ed hp

theorem Shape.conds {F : List Edge} (h : Shape F) (hne : F ≠ []) (hF : ¬ EndsAttr F) (cs : List Cond) :
    Shape (F ++ cs.flatMap condEdges) ∧ ¬ EndsAttr (F ++ cs.flatMap condEdges) := by
  induction cs generalizing F with
  | nil => simpa using ⟨h, hF⟩
  | cons c cs ih =>
    have h1 : Shape (F ++ [(⟨({} : Mask).seekop .Attribute, c.name, false⟩ : Edge)]) :=
      h.snoc (.inr (.inl ⟨rfl, rfl, hne, hF⟩))
    have h2 := h1.snoc (x := ⟨({} : Mask).seekop .ThisAttributeValue, c.value, false⟩)
      (.inr (.inr ⟨rfl, rfl, (endsAttr_snoc _ _).2 rfl⟩))
    have := ih h2 (by simp) (fun k => absurd ((endsAttr_snoc _ _).1 k) (show ({} : Mask).seekop .ThisAttributeValue ≠ attrMask by decide))
    rw [List.flatMap_cons]
    simpa [condEdges] using this

theorem shape_steps (ss : List CStep) : Shape (ss.flatMap stepEdges) ∧ ¬ EndsAttr (ss.flatMap stepEdges) := by
  have : ∀ (ss : List CStep) (F : List Edge), Shape F → ¬ EndsAttr F →
      Shape (F ++ ss.flatMap stepEdges) ∧ ¬ EndsAttr (F ++ ss.flatMap stepEdges) := by
    intro ss
    induction ss with
    | nil => intro F h1 h2; simpa using ⟨h1, h2⟩
    | cons s ss ih =>
      intro F h1 h2
      have k1 : Shape (F ++ [edgeOf s.toStep]) := h1.snoc (.inl ⟨rfl, h2⟩)
      have k2 := k1.conds (by simp) (fun k => absurd ((endsAttr_snoc _ _).1 k)
        (show ({} : Mask).seekop .OpenTag ≠ attrMask by decide)) s.conds
      have := ih _ k2.1 k2.2
      rw [List.flatMap_cons]
      simpa [stepEdges] using this
  have h := this ss [] (fun L ed hp => by simp at hp) (by rintro ⟨L, ed, h, -⟩; simp at h)
  simpa using h

theorem steps_nil {ss : List CStep} (h : ss.flatMap stepEdges = []) : ss = [] := by
  cases ss with
  | nil => rfl
  | cons s ss => simp [stepEdges] at h

/-- The transitions of tags. -/
theorem tag_edges {ss : List CStep} {ed : Edge} (h : ed ∈ ss.flatMap stepEdges) (hm : ed.mask = tagMask) :
    ∃ (i : Nat) (s : CStep), ss[i]? = some s ∧ ed = edgeOf s.toStep := by
  obtain ⟨s, h1, h2⟩ := List.mem_flatMap.1 h
  obtain ⟨i, hi⟩ := List.mem_iff_getElem?.1 h1
  rcases List.mem_cons.1 h2 with h2 | h2
  · exact ⟨i, s, hi, h2⟩
  · obtain ⟨c, -, h3⟩ := List.mem_flatMap.1 h2
    simp only [condEdges, List.mem_cons, List.not_mem_nil, or_false] at h3
    rcases h3 with rfl | rfl
    · exact absurd hm (show ({} : Mask).seekop .Attribute ≠ tagMask by decide)
    · exact absurd hm (show ({} : Mask).seekop .ThisAttributeValue ≠ tagMask by decide)

/-- The transitions of values are those of conditions. -/
theorem val_edges {ss : List CStep} {ed : Edge} (h : ed ∈ ss.flatMap stepEdges) (hm : ed.mask = valMask) :
    ∃ s ∈ ss, s.conds ≠ [] := by
  obtain ⟨s, h1, h2⟩ := List.mem_flatMap.1 h
  refine ⟨s, h1, fun hc => ?_⟩
  unfold stepEdges at h2
  rw [hc] at h2
  simp only [List.flatMap_nil, List.mem_singleton] at h2
  subst h2
  exact absurd hm (show ({} : Mask).seekop .OpenTag ≠ valMask by decide)

theorem plus_root (F : List Edge) (nm v : List Byte) : plus bare F nm v [] = 0 := by
  unfold plus
  split
  · split
    · rename_i h
      rw [W_root]
      exact if_neg (by simpa using h.1)
    · rfl
  · rfl

theorem below_any (L : List Edge) {m : Mask} (hm : m ≠ valMask) (q : List Open) : below bare L q = W bare (L ++ [⟨m, none, true⟩]) q := by
  cases q with
  | nil => rw [W_root]; simp [below, bare]
  | cons x q =>
    rw [W_tag L (ed := ⟨m, none, true⟩) hm, if_pos (show accepts none x.name from trivial), if_pos rfl]
    rfl

theorem accepts_step (name : Option (List Byte)) (nm : List Byte) (d : Bool) : accepts name nm ↔ Step.accepts ⟨d, name⟩ nm = true := by
  unfold accepts Step.accepts
  cases name <;> simp

/-- The ways to the elements and to those containing them. -/
theorem reaches_eq {ss : List CStep} {q path : List Open}
    (hq : path = q.reverse ∨ (∀ s ∈ ss, s.conds = []) ∧ path.map (·.name) = (q.map (·.name)).reverse) (desc : Bool) :
    W bare (ss.flatMap stepEdges) q + (if desc then below bare (ss.flatMap stepEdges) q else 0) = reaches ss desc path := by
  have hr : ∀ ss' : List CStep, (∀ s ∈ ss', s ∈ ss ∨ s.conds = []) → routes ss' q.reverse = routes ss' path := by
    intro ss' h
    rcases hq with rfl | ⟨h1, h2⟩
    · rfl
    · apply routes_names
      · intro s hs'
        rcases h s hs' with k | k
        · exact h1 s k
        · exact k
      · rw [h2]; simp
  unfold reaches
  rw [W_routes, hr ss fun s h => .inl h, below_any _ (show ({} : Mask).seekop .OpenTag ≠ valMask by decide)]
  have : W bare (ss.flatMap stepEdges ++ [⟨({} : Mask).seekop .OpenTag, none, true⟩]) q =
      routes (ss ++ [(⟨⟨true, none⟩, []⟩ : CStep)]) path := by
    rw [← hr (ss ++ [(⟨⟨true, none⟩, []⟩ : CStep)]) (fun s h => by
      rcases List.mem_append.1 h with h | h
      · exact .inl h
      · rw [List.mem_singleton] at h; subst h; exact .inr rfl), ← W_routes]
    congr 1
    simp [stepEdges, edgeOf]
  rw [this]

/-- What is reported for a query. -/
theorem amount_query {x : Query} (q path : List Open) (ph : Ph) (prev : Option Item)
    (it : Item) (hne : it.1 = .HeaderEnd → x.steps = [] → ∀ d, x.final ≠ .closeTag d) (hn : path.map (·.name) = (q.map (·.name)).reverse) (hp : x.placed → path = q.reverse ∧ PhFor prev ph ∧
      (it.1 = .TagAttribValue → ∃ p, prev = some p ∧ p.1 = .TagAttribName) ∧ (it.1 = .HeaderEnd ∨ it.1 = .HeaderAttribValue → q = [] ∧ ph = .off)) (hst : ph ≠ .start) :
    amount bare it.1 it.2 ph q (labelOf x, coreOf x) = x.answers path prev it := by
  have hq : path = q.reverse ∨ (∀ s ∈ x.steps, s.conds = []) ∧ path.map (·.name) = (q.map (·.name)).reverse := by
    by_cases hc : ∀ s ∈ x.steps, s.conds = []
    · exact .inr ⟨hc, hn⟩
    · left
      refine (hp (.inl ?_)).1
      rw [Classical.not_forall] at hc
      obtain ⟨s, hc⟩ := hc
      rw [Classical.not_imp] at hc
      exact ⟨s, hc⟩
  have hre := fun desc => reaches_eq hq desc
  have hsh := (shape_steps x.steps).1
  obtain ⟨type, key⟩ := it
  unfold amount labelOf coreOf Query.answers
  cases hx : x.final with
  | element =>
    simp only [List.append_nil, if_true]
    rcases nil_or_snoc (x.steps.flatMap stepEdges) with h | ⟨L, ed, hL⟩
    · have hne := steps_nil h
      rw [h, hne]
      have hz : routes [] (path ++ [⟨key, []⟩]) = 0 := by cases path <;> rfl
      have hv : routes [] (grown path prev (.TagAttribValue, key)) = routes [] path := by
        apply routes_names (fun _ hm => by simp at hm)
        rw [grown_names]
        rfl
      cases type <;> first | rfl | exact hz.symm | exact (by rw [hv, Nat.sub_self] : 0 = routes [] (grown path prev (.TagAttribValue, key)) - routes [] path)
    · have hnc : ¬ ed.mask = closeMask := by
        rcases hsh L ed (by rw [hL]; exact List.prefix_rfl) with ⟨k, -⟩ | ⟨k, -⟩ | ⟨k, -⟩ <;> rw [k] <;> decide
      rw [hL]
      simp only [List.getLast?_append, List.getLast?_singleton, Option.some_or, hnc, if_false]
      rw [← hL]
      have hz : ∀ q', W bare (x.steps.flatMap stepEdges) q' = routes x.steps q'.reverse := W_routes _
      have noVal : (∀ s ∈ x.steps, s.conds = []) → ∀ nm v, plus bare (x.steps.flatMap stepEdges) nm v q = 0 := by
        intro hc' nm v
        rw [hL]
        apply plus_tag
        intro hv
        obtain ⟨s, h2, h3⟩ := val_edges (ss := x.steps) (ed := ed) (by rw [hL]; simp) hv
        exact h3 (hc' s h2)
      by_cases ht : type = .OpenTag
      · subst ht
        show W bare _ (⟨key, []⟩ :: q) = routes x.steps (path ++ [⟨key, []⟩])
        rw [hz, List.reverse_cons]
        rcases hq with rfl | ⟨h1, h2⟩
        · rfl
        · apply routes_names h1
          simp [h2]
      · by_cases ht2 : type = .TagAttribValue
        · subst ht2
          simp only []
          rcases Classical.em (∃ s ∈ x.steps, s.conds ≠ []) with hc | hc
          · obtain ⟨rfl, h2, h3, -⟩ := hp (.inl hc)
            rw [grown_rev h2 q _ h3 (fun hx => nomatch hx), ← hz, ← hz]
            obtain ⟨⟨t, nm⟩, k1, k2⟩ := h3 rfl
            cases k2
            have := (h2 _ k1).2.1 rfl
            subst this
            cases q with
            | nil =>
              show plus bare _ _ _ _ = W bare _ [] - W bare _ []
              rw [plus_root, Nat.sub_self]
            | cons y q =>
              show plus bare _ nm key (y :: q) = W bare _ (⟨y.name, y.attrs ++ [(nm, key)]⟩ :: q) - W bare _ (y :: q)
              rw [W_att]
              show _ = W bare _ (y :: q) + plus bare _ nm key (y :: q) - W bare _ (y :: q)
              omega
          · have hc' : ∀ s ∈ x.steps, s.conds = [] := fun s h => Classical.byContradiction fun k => hc ⟨s, h, k⟩
            have h1 : routes x.steps (grown path prev (.TagAttribValue, key)) = routes x.steps path := by
              apply routes_names hc'
              rw [grown_names]
              rfl
            rw [h1, Nat.sub_self]
            cases ph <;> first | rfl | exact noVal hc' _ _
        · have hz : gain bare type key ph q (x.steps.flatMap stepEdges) = 0 := by
            by_cases ht3 : type = .HeaderAttribValue
            · rcases Classical.em (∃ s ∈ x.steps, s.conds ≠ []) with hc | hc
              · obtain ⟨-, -, -, h4⟩ := hp (.inl hc)
                rw [(h4 (.inr ht3)).2, ht3]
                rfl
              · have hc' : ∀ s ∈ x.steps, s.conds = [] := fun s h => Classical.byContradiction fun k => hc ⟨s, h, k⟩
                rw [ht3]
                cases ph <;> first | rfl | exact noVal hc' _ _
            · unfold gain
              split
              · exact (ht rfl).elim
              · exact (hst rfl).elim
              · exact (ht2 rfl).elim
              · exact (ht3 rfl).elim
              · rfl
          rw [hz]
          split
          · exact (ht rfl).elim
          · exact (ht2 rfl).elim
          · rfl
  | content desc =>
    have hne : ¬ ({} : Mask).seekop .Content = {} := by decide
    simp only [hne, if_false, List.append_nil, contMask, if_true]
    rw [hre]
  | «attribute» d name =>
    have hne : ¬ ({} : Mask).seekop .ThisAttributeValue = {} := by decide
    have hne2 : ¬ ({} : Mask).seekop .ThisAttributeValue = contMask := by decide
    simp only [hne, hne2, if_false]
    by_cases ht : type = .TagAttribValue
    · subst ht
      obtain ⟨rfl, h1, h2, -⟩ := hp (.inr (.inl ⟨d, name, hx⟩))
      obtain ⟨⟨t, nm⟩, k1, k2⟩ := h2 rfl
      cases k2
      rw [(h1 _ k1).2.1 rfl, k1]
      simp only [List.getLast?_append, List.getLast?_singleton, Option.some_or, List.dropLast_concat]
      by_cases hacc : Step.accepts ⟨false, name⟩ nm = true
      · rw [if_pos ((accepts_step name nm false).2 hacc), if_pos hacc]
        exact hre d
      · rw [if_neg (fun h => hacc ((accepts_step name nm false).1 h)), if_neg hacc]
    · by_cases ht3 : type = .HeaderAttribValue
      · obtain ⟨-, -, -, h4⟩ := hp (.inr (.inl ⟨d, name, hx⟩))
        rw [(h4 (.inr ht3)).2, ht3]
      · cases type <;> first | rfl | exact (ht rfl).elim | exact (ht3 rfl).elim
  | closeTag d =>
    obtain ⟨rfl, h1, h2, h3⟩ := hp (.inr (.inr ⟨d, hx⟩))
    simp only [List.getLast?_append, List.getLast?_singleton, Option.some_or, List.dropLast_concat, if_true, closeMask]
    by_cases ht : type = .CloseTag ∨ type = .CloseTagIm
    · rw [if_pos ht, if_pos (by rcases ht with rfl | rfl <;> decide)]
      exact hre d
    · rw [if_neg ht]
      by_cases ht2 : type = .HeaderEnd
      · rw [(h3 (.inl ht2)).1]
        rcases nil_or_snoc (x.steps.flatMap stepEdges) with h | ⟨L, ed, hL⟩
        · exact (hne ht2 (steps_nil h) d hx).elim
        · rw [hL, W_root]
          simp [below, bare]
      · rw [if_neg]
        intro hm
        revert hm ht ht2
        cases type <;> simp <;> decide

/-- The queries without a step: those for contents and attributes. -/
def RootOk (x : Query) : Prop := x.steps = [] → (∃ d, x.final = .content d) ∨ ∃ d name, x.final = .attribute d name

theorem amount_bare (type : ElementType) (key : List Byte) (ph : Ph) (q : List Open) (o : List Edge × Core) :
    amount B type key ph q (bareOut o) = amount B type key ph q o := by
  unfold amount
  rw [bareOut_mask, bareOut_follow, bareOut_fst]

theorem amounts_bare (os : List (List Edge × Core)) : ∀ (items : List Item) (B : List Edge → Nat) (ph : Ph) (q : List Open),
    amounts (os.map bareOut) B ph q items = amounts os B ph q items := by
  intro items
  induction items with
  | nil => intro _ _ _; rfl
  | cons it items ih =>
    intro B ph q
    unfold amounts
    rw [ih, List.map_map]
    congr 2
    exact List.map_congr_left fun o _ => amount_bare ..

theorem bareOut_shape {L : List Edge} {c : Core} {A B C : Prop}
    (h : ((bareOut (L, c)).2.mask = {} ∧ A) ∨ ((bareOut (L, c)).2.mask = contMask ∧ B) ∨
      ((bareOut (L, c)).2.mask = valMask ∧ (bareOut (L, c)).2.follow = false ∧ C)) :
    (c.mask = {} ∧ A) ∨ (c.mask = contMask ∧ B) ∨ (c.mask = valMask ∧ c.follow = false ∧ C) := by
  rw [bareOut_mask, bareOut_follow] at h
  exact h

/-- The outputs of queries have no ranges. -/
theorem flat_outs {E : Prop} {xs : List Query} (h2 : At E a lab {} [])
    (h3' : (outs a lab ty).map bareOut = (xs.filter (·.type = ty)).map fun x => (labelOf x, coreOf x)) : Flat a ty := by
  intro j st k1 k2 k3
  obtain ⟨L, -, k4⟩ := mem_outs h2.ok k1 k2
  have k4 := List.mem_map_of_mem (f := bareOut) k4
  rw [h3', List.mem_map] at k4
  obtain ⟨x, -, k6⟩ := k4
  have k7 : (bareOut (L, st.core)).2 = st.core := if_neg k3
  rw [← k7, ← k6]
  show (coreOf x).cntEnd = -1
  unfold coreOf
  cases x.final <;> rfl

/-- The output without its range. -/
def erase (o : List Edge × Core) : List Edge × Core := (o.1, { o.2 with cntStart := 0, cntEnd := -1 })

theorem erase_query (x : Query) : erase (labelOf x, coreOf x) = (labelOf x, coreOf x) := by
  unfold erase coreOf
  cases x.final <;> rfl

theorem erase_bare {os : List (List Edge × Core)} {xs : List Query}
    (h : os.map bareOut = xs.map fun x => (labelOf x, coreOf x)) : os.map erase = xs.map fun x => (labelOf x, coreOf x) := by
  have := congrArg (List.map erase) h
  simp only [List.map_map] at this
  rw [show (fun o => (labelOf o, coreOf o)) = erase ∘ fun x => (labelOf x, coreOf x) from
    funext fun x => (erase_query x).symm, ← this]
  apply List.map_congr_left
  intro o _
  unfold erase bareOut Function.comp
  simp only []
  split <;> rfl

/-- The types of queries. -/
theorem goal_outs {E : Prop} {xs : List Query} (hty : ty ≠ 0) (h2 : At E a lab {} [])
    (h3' : (outs a lab ty).map erase = (xs.filter (·.type = ty)).map fun x => (labelOf x, coreOf x))
    (hne : ∀ x ∈ xs, x.type = ty → RootOk x) (hq : ∀ x ∈ xs, x.type = ty → ∀ name, x.final = .attribute true name → NoCont a) :
    Goal a lab ty (Begins ty xs) := by
  refine ⟨h2.ok, hty, ?_, ?_⟩
  · rintro L ed ⟨x, k1, k2, k3, k4⟩
    have hsh := (shape_steps x.steps).1
    have low : ∀ L', ¬ EndsAttr L' → L' <+: x.steps.flatMap stepEdges → Begins ty xs L' :=
      fun L' m1 m2 => ⟨x, k1, k2, m2, fun L'' ed' m3 m4 => m1 ⟨L'', ed', m3, m4⟩⟩
    rcases hsh L ed k3 with ⟨m1, m2⟩ | ⟨m1, -⟩ | ⟨m1, m2, L', e', rfl, m3⟩
    · exact .inl ⟨low L m2 ((List.prefix_append L [ed]).trans k3), m1⟩
    · exact (k4 L ed rfl m1).elim
    · refine .inr ⟨m1, m2, L', e', ?_⟩
      have k5 := (List.prefix_append (L' ++ [e']) [ed]).trans k3
      rcases hsh L' e' k5 with ⟨m4, -⟩ | ⟨-, m4, m5, m6⟩ | ⟨m4, -⟩
      · rw [m3] at m4; exact absurd m4 (by decide)
      · exact ⟨⟨rfl, low L' m6 ((List.prefix_append L' [e']).trans k5), m3, fun h => by rw [m4] at h; cases h⟩, m5, m4⟩
      · rw [m3] at m4; exact absurd m4 (by decide)
  · intro j st k1 k2
    obtain ⟨L, k3, k4⟩ := mem_outs h2.ok k1 k2
    have k4 := List.mem_map_of_mem (f := erase) k4
    rw [h3', List.mem_map] at k4
    obtain ⟨x, k5, k6⟩ := k4
    obtain ⟨k7, k8⟩ := List.mem_filter.1 k5
    have k8 : x.type = ty := by simpa using k8
    obtain ⟨k9, k10⟩ := Prod.mk.inj k6
    have hb : Begins ty xs (x.steps.flatMap stepEdges) :=
      ⟨x, k7, k8, List.prefix_rfl, fun L' ed m1 m2 => (shape_steps x.steps).2 ⟨L', ed, m1, m2⟩⟩
    refine ⟨L, k3, ?_⟩
    unfold labelOf at k9
    unfold coreOf at k10
    change _ = L at k9
    have e1 := congrArg Core.mask k10
    have e2 := congrArg Core.follow k10
    change _ = st.core.mask at e1
    change _ = st.core.follow at e2
    rw [← k9] at *
    rw [← e1, ← e2]
    have hne := hne x k7 k8
    cases hx : x.final with
    | element =>
      left
      rw [List.append_nil]
      refine ⟨rfl, .inl ⟨hb, fun h => ?_⟩⟩
      rcases hne (steps_nil h) with ⟨d, h⟩ | ⟨d, nm, h⟩ <;> rw [hx] at h <;> cases h
    | content d =>
      right; left
      rw [List.append_nil]
      exact ⟨rfl, hb⟩
    | «attribute» d name =>
      right; right
      refine ⟨rfl, rfl, _, _, rfl, hb, rfl, fun h => ?_⟩
      have h : d = true := h
      subst h
      exact hq x k7 k8 name hx
    | closeTag d =>
      left
      exact ⟨rfl, .inr ⟨_, _, rfl, hb, rfl, rfl⟩⟩

/-- What is reported for queries. -/
theorem amounts_answers {xs : List Query}
    (hne : ∀ x ∈ xs, x.type = ty → RootOk x) (items : List Item) : ∀ prev ph (q path : List Open),
    path.map (·.name) = (q.map (·.name)).reverse → (∀ x ∈ xs, x.type = ty → x.placed → path = q.reverse ∧ PhFor prev ph ∧ Tidy (q.map (·.name)).reverse prev items) →
    ph ≠ .start → (q = [] → ph = .off) →
    amounts (((xs).filter (·.type = ty)).map fun x => (labelOf x, coreOf x)) bare ph q items =
      answers (xs) ty path prev items := by
  induction items with
  | nil => intro _ _ _ _ _ _ _ _; rfl
  | cons it items ih =>
    intro prev ph q path hn hp hst hq
    unfold amounts answers
    rw [(off_next hq it.1 it.2).1, ← ih (some it) (ph.next it.1 it.2) (afterRev ph q it.1 it.2) (grown path prev it) ?_ ?_ (Ph.next_ne _ _ _) (off_next (B := bare) hq it.1 it.2).2]
    · congr 1
      rw [List.map_map]
      congr 1
      apply List.map_congr_left
      intro x hx
      obtain ⟨k1, k2⟩ := List.mem_filter.1 hx
      have k2 : x.type = ty := by simpa using k2
      refine amount_query q path ph prev it (fun _ h d hx => by rcases hne x k1 k2 h with ⟨d, h⟩ | ⟨d, nm, h⟩ <;> rw [hx] at h <;> cases h) hn (fun hpl => ?_) hst
      obtain ⟨m1, m2, -, m3, m4, -⟩ := hp x k1 k2 hpl
      refine ⟨m1, m2, m3, fun k => ?_⟩
      have : q = [] := by simpa using m4 k.symm
      exact ⟨this, hq this⟩
    · rw [grown_names, hn, after_rev ph]
    · intro x k1 k2 hpl
      obtain ⟨rfl, k3, k4, k5, k7, k6⟩ := hp x k1 k2 hpl
      rw [after_rev ph] at k6
      exact ⟨grown_rev k3 q it k5 (fun k => by simpa using k7 (.inl k)), k3.next it k4 k5, k6⟩

/-- The headers are no tags of queries. -/
theorem hdr_ok {xs : List Query} : ∀ (items : List Item) ph q, (q = [] → ph = .off) →
    HeaderFree ((xs.filter (·.type = ty)).map fun x => x.steps.map (·.toStep)) (q.map (·.name)).reverse items →
    HdrOk (Begins ty xs) bare ph q items := by
  intro items
  induction items with
  | nil => intro _ _ _ _; trivial
  | cons it items ih =>
    intro ph q hq hh
    refine ⟨?_, by rw [(off_next hq it.1 it.2).1]; exact ih _ _ (off_next (B := bare) hq it.1 it.2).2 (by rw [← after_rev]; exact hh.2)⟩
    rintro ht L ed ⟨x, k1, k2, k3, -⟩ hm hacc
    have found : ∀ (i : Nat) (s : CStep), x.steps[i]? = some s → ed = edgeOf s.toStep → q = [] ∧ 0 < i := by
      rintro i s k5 rfl
      have k6 := (accepts_step s.name it.2 s.desc).1 hacc
      obtain ⟨k7, k8⟩ := hh.1 ht (x.steps.map (·.toStep)) (List.mem_map.2 ⟨x, List.mem_filter.2 ⟨k1, by simpa using k2⟩, rfl⟩)
        i s.toStep (by rw [List.getElem?_map, k5]; rfl) k6
      exact ⟨by simpa using k7, k8⟩
    refine ⟨?_, ?_⟩
    · obtain ⟨i, s, k5, k6⟩ := tag_edges (k3.subset (by simp)) hm
      exact (found i s k5 k6).1
    · right
      refine if_neg ?_
      rintro rfl
      obtain ⟨rest, k3⟩ := k3
      cases hss : x.steps with
      | nil => rw [hss] at k3; simp at k3
      | cons s ss =>
        rw [hss] at k3
        have : ed = edgeOf s.toStep := by
          have := congrArg List.head? k3
          simpa [stepEdges] using this
        have := (found 0 s (by rw [hss]; rfl) this).2
        omega

/-- The values of attributes are where they belong, if queries ask for them. -/
theorem asks_ok {xs : List Query}
    (h3' : (outs a lab ty).map erase = (xs.filter (·.type = ty)).map fun x => (labelOf x, coreOf x)) {items : List Item}
    (ht : ∀ x ∈ xs, x.type = ty → x.placed → Tidy [] none items)
    (hr : ∀ x ∈ xs, x.type = ty → x.steps = [] → ∀ d name, x.final = .attribute d name → ∀ it ∈ items, it.1 ≠ .HeaderAttribValue)
    (hask : Asks a lab ty (Begins ty xs)) : PhOks (RootAsk a lab ty) bare .off [] items := by
  have off : PhFor none .off := fun _ h => nomatch h
  have hr' : RootAsk a lab ty → ∀ it ∈ items, it.1 ≠ .HeaderAttribValue := by
    rintro ⟨o, ho, hm, hl⟩
    change (erase o).2.mask = _ at hm
    change (erase o).1.dropLast = _ at hl
    have ho := List.mem_map_of_mem (f := erase) ho
    rw [h3', List.mem_map] at ho
    obtain ⟨x, k5, k6⟩ := ho
    rw [← k6] at hm hl
    obtain ⟨k7, k8⟩ := List.mem_filter.1 k5
    have k8 : x.type = ty := by simpa using k8
    unfold coreOf at hm
    cases hx : x.final with
    | element => simp only [hx] at hm; exact absurd hm (by decide)
    | content d => simp only [hx] at hm; exact absurd hm (by decide)
    | «attribute» d name =>
      unfold labelOf at hl
      simp only [hx, List.dropLast_concat] at hl
      exact hr x k7 k8 (steps_nil hl) d name hx
    | closeTag d => simp only [hx] at hm; exact absurd hm (by decide)
  rcases hask with ⟨o, ho, hm⟩ | ⟨L, ed, ⟨x, k1, k2, k3, -⟩, hm⟩
  · change (erase o).2.mask = _ at hm
    have ho := List.mem_map_of_mem (f := erase) ho
    rw [h3', List.mem_map] at ho
    obtain ⟨x, k5, k6⟩ := ho
    rw [← k6] at hm
    obtain ⟨k7, k8⟩ := List.mem_filter.1 k5
    have k8 : x.type = ty := by simpa using k8
    unfold coreOf at hm
    cases hx : x.final with
    | element => simp only [hx] at hm; exact absurd hm (by decide)
    | content d => simp only [hx] at hm; exact absurd hm (by decide)
    | «attribute» d name => exact tidy_ok items hr' off (fun _ => rfl) (ht x k7 k8 (.inr (.inl ⟨d, name, hx⟩)))
    | closeTag d => simp only [hx] at hm; exact absurd hm (by decide)
  · exact tidy_ok items hr' off (fun _ => rfl) (ht x k1 k2 (.inl (val_edges (k3.subset (by simp)) hm)))

/-- The reports of a selector for an automaton with the outputs of queries. -/
theorem select_outs {E : Prop} {xs : List Query} (hty : ty ≠ 0) (h2 : At E a lab {} [])
    (h3' : (outs a lab ty).map bareOut = (xs.filter (·.type = ty)).map fun x => (labelOf x, coreOf x))
    (hne : ∀ x ∈ xs, x.type = ty → RootOk x) (hq : ∀ x ∈ xs, x.type = ty → ∀ name, x.final = .attribute true name → NoCont a) (items : List Item)
    (hh : HeaderFree ((xs.filter (·.type = ty)).map fun x => x.steps.map (·.toStep)) [] items)
    (ht : ∀ x ∈ xs, x.type = ty → x.placed → Tidy [] none items)
    (hr : ∀ x ∈ xs, x.type = ty → x.steps = [] → ∀ d name, x.final = .attribute d name → ∀ it ∈ items, it.1 ≠ .HeaderAttribValue) :
    ∃ s, Sel.mk' a = .ok s ∧
      ∃ N rss s', (∀ m, N ≤ m → Sel.feed m items s = (.ok rss, s')) ∧
        rss.map (·.count ty) = answers xs ty [] none items := by
  have g := goal_outs hty h2 (erase_bare h3') hne hq
  obtain ⟨s, R, h4, h5, -⟩ := init_inv g
  have off : PhFor none .off := fun _ h => nomatch h
  obtain ⟨N, rss, s', h6, h7⟩ := h5.rest.feed g (flat_outs h2 h3') items (by
    exact hdr_ok items .off [] (fun _ => rfl) hh) (by
    exact asks_ok (erase_bare h3') ht hr) (fun hx => (hx rfl).elim)
  refine ⟨s, h4, N, rss, s', h6, ?_⟩
  rw [h7, ← amounts_bare, h3']
  exact amounts_answers hne items none .off [] [] rfl (fun x k1 k2 hpl => ⟨rfl, off, ht x k1 k2 hpl⟩) (fun hx => nomatch hx) fun _ => rfl

theorem noCont_built {e : Enc} {n : Nat} {ds : List Def} (hd : ∀ d ∈ ds, PElem.Call.content ∉ d.calls) {r : Res Unit}
    (h : build e n (ds.map Def.calls) [] = (r, a)) : NoCont a := by
  have := (hush_build (e := e) (n := n) (defs := ds.map Def.calls) (fun cs hcs => by
    obtain ⟨d, k1, rfl⟩ := List.mem_map.1 hcs
    exact hd d k1) [] (fun j st hj => by simp at hj)).1
  rw [h] at this
  exact this

/-- The reports of a selector for the type of queries: those for the keys of the names. -/
theorem select_keyed {E : Prop} {e : Enc} {n : Nat} (ds : List Def) {xs : List Query} (hx : (queries ds).map (keyed e n) = xs) (hty : ty ≠ 0)
    (hd : ∀ d ∈ ds, DefFits E e n ty d) (hne : ∀ x ∈ xs, x.type = ty → RootOk x)
    (hq : ∀ x ∈ xs, x.type = ty → ∀ name, x.final = .attribute true name → ∀ d ∈ ds, PElem.Call.content ∉ d.calls) (items : List Item)
    (hh : HeaderFree ((xs.filter (·.type = ty)).map fun x => x.steps.map (·.toStep)) [] items)
    (ht : ∀ x ∈ xs, x.type = ty → x.placed → Tidy [] none items)
    (hr : ∀ x ∈ xs, x.type = ty → x.steps = [] → ∀ d name, x.final = .attribute d name → ∀ it ∈ items, it.1 ≠ .HeaderAttribValue) :
    ∃ a s, build e n (ds.map Def.calls) [] = (.ok (), a) ∧ Sel.mk' a = .ok s ∧
      ∃ N rss s', (∀ m, N ≤ m → Sel.feed m items s = (.ok rss, s')) ∧
        rss.map (·.count ty) = answers xs ty [] none items := by
  obtain ⟨a, lab, h1, h2, h3⟩ := build_spec (E := E) (a := []) (lab := []) ds
    ⟨ok_nil, fun _ _ h => by simp at h, .inl ⟨rfl, rfl, rfl, rfl⟩⟩ hty hd
  obtain ⟨s, h4⟩ := select_outs (xs := xs) hty h2 (by
      rw [h3, ← hx, List.filter_map, List.map_map]
      simp only [outs, List.zip_nil_right, List.filterMap_nil, List.nil_append, List.map_map]
      exact List.map_congr_left fun x _ => bareOut_query _) hne
    (fun x k1 k2 name k3 => noCont_built (hq x k1 k2 name k3) h1) items hh ht hr
  exact ⟨a, s, h1, h4⟩

theorem keyed_self {E : Prop} {e : Enc} {n : Nat} {ds : List Def} (hd : ∀ d ∈ ds, DefOk E e n ty d) :
    (queries ds).map (keyed e n) = queries ds :=
  (List.map_congr_left (g := id) fun x k => QueryOk.keyed (hd _ (mem_queries k))).trans (List.map_id _)

/-- The reports of a selector for the type of queries. -/
theorem select_spec {E : Prop} {e : Enc} {n : Nat} (ds : List Def) (hty : ty ≠ 0) (hd : ∀ d ∈ ds, DefOk E e n ty d)
    (hne : ∀ x ∈ queries ds, x.type = ty → RootOk x)
    (hq : ∀ x ∈ queries ds, x.type = ty → ∀ name, x.final = .attribute true name → ∀ d ∈ ds, PElem.Call.content ∉ d.calls) (items : List Item)
    (hh : HeaderFree (((queries ds).filter (·.type = ty)).map fun x => x.steps.map (·.toStep)) [] items)
    (ht : ∀ x ∈ queries ds, x.type = ty → x.placed → Tidy [] none items)
    (hr : ∀ x ∈ queries ds, x.type = ty → x.steps = [] → ∀ d name, x.final = .attribute d name → ∀ it ∈ items, it.1 ≠ .HeaderAttribValue) :
    ∃ a s, build e n (ds.map Def.calls) [] = (.ok (), a) ∧ Sel.mk' a = .ok s ∧
      ∃ N rss s', (∀ m, N ≤ m → Sel.feed m items s = (.ok rss, s')) ∧
        rss.map (·.count ty) = answers (queries ds) ty [] none items :=
  select_keyed ds (keyed_self hd) hty (fun d k => (hd d k).fits) hne hq items hh ht hr

end TW.Path
