import Verif.Proofs.PathWays
import Verif.Proofs.PathLeaf

/-!
# The tokens count the ways to match the steps
-/

namespace TW.Path

open Spec.Path (Open)

variable {a : Atm} {lab : List (List Edge)} {key : List Byte} {s : Sel} {B : List Edge → Nat}

/-- Processing an item: what is activated, and what is reported. -/
structure Mid (a : Atm) (s s2 : Sel) (X : List Nat) : Prop where
  atm : s2.atm = s.atm
  stk : s2.scopestk = s.scopestk
  type : s2.type = s.type
  from' : s2.scope.tokenFrom = s.scope.tokenFrom
  to : s2.scope.tokenTo = s.scope.tokenTo
  fidx : s2.scope.followidx = s.scope.followidx
  idx : s2.idx = s.idx ++ X.filter (!trig a ·)
  follows : s2.follows = s.follows ++ fols a s.tokens.length (X.filter (!trig a ·))
  tok : TokOk a s2
  mask : ∀ t, s.scope.mask.matches t = true → s2.scope.mask.matches t = true
  fmask : ∀ t, s.scope.followMask.matches t = true → s2.scope.followMask.matches t = true
  cover : ∀ (j : Nat) (st : State) (t : ElementType), j ∈ X → a[j]? = some st → st.core.mask.matches t = true →
    s2.scope.mask.matches t = true ∧ (st.core.follow = true → s2.scope.followMask.matches t = true)
  life : ∀ (k : Nat) (t : Token) (st : State), s.tokens[k]? = some t → a[t.stateidx]? = some st →
    st.core.cntEnd = -1 → ∃ t', s2.tokens[k]? = some t' ∧ t'.stateidx = t.stateidx ∧
      (t'.core = t.core ∨ t'.core = t.core.dead ∧ t.core.mask.rejects s.type = true ∧ s.scope.mask.matches s.type = true)
  fresh : ∀ (k : Nat) (t : Token), s.tokens.length ≤ k → s2.tokens[k]? = some t →
    ∃ st, a[t.stateidx]? = some st ∧ t.core = st.core
  only : ∀ t, s2.scope.mask.matches t = true ∨ s2.scope.followMask.matches t = true →
    s.scope.mask.matches t = true ∨ s.scope.followMask.matches t = true ∨
      ∃ j ∈ X, ∃ st, a[j]? = some st ∧ st.core.mask.matches t = true

theorem run_item (h : Ready a lab key s) : ∃ N rs s2 X, Mid a s s2 X ∧
    (∀ n, N ≤ n → (Sel.fetch n >>= Sel.walk n false n) s = (.ok rs, s2)) ∧
    ((s.scope.mask.matches s.type = true ∧ s2.triggers = [] ∧
      (∃ rs0 s3, Sel.visitAll s.pending s = (.ok rs0, s3) ∧ s2.tokens = s3.tokens ∧
        rs = rs0.filter (· ≠ 0) ++ (((X.filter (trig a)).map (typ a)).reverse ++ s.triggers)) ∧
      (∀ i ∈ s.pending, ∀ (t : Token) (st : State), s2.tokens[i]? = some t → a[t.stateidx]? = some st →
        st.core.cntEnd = -1 → st.core.mask.rejects s.type = true → t.core.mask = {}) ∧
      ∃ rs0, Visits a s.type key s.tokens s.pending X rs0) ∨
     (s.scope.mask.matches s.type = false ∧ X = [] ∧ rs = [] ∧ s2.triggers = s.triggers ∧ s2.tokens = s.tokens)) := by
  cases hm : s.scope.mask.matches s.type with
  | true =>
    obtain ⟨rs, s2, X, h1, h2, -, h4, h5⟩ := h.visits s.pending (pending_lt h.from')
    refine ⟨s.pending.length + s2.triggers.length + 1, rs.filter (· ≠ 0) ++ s2.triggers, s2.drained, X,
      ⟨h2.atm, h2.stk, h2.type, h2.from', h2.to, h2.fidx, h2.idx, h2.follows, h2.tok h.tok, h2.mask, h2.fmask,
        h2.cover, ?_, h2.fresh h.to, h2.only⟩, ?_, .inl ⟨rfl, rfl, ⟨rs, s2, h1, rfl, by rw [h2.triggers]⟩, h5, rs, h4⟩⟩
    · intro k t st k1 k2 k3
      obtain ⟨t', m1, m2, m3⟩ := h2.life h.tok k t st k1 k2 k3
      exact ⟨t', m1, m2, m3.imp_right fun m => ⟨m.1, m.2, hm⟩⟩
    intro n hn
    have := drain (lab := lab) n s.pending h hm rfl h1 n n hn hn hn
    rw [M.bind_run] at this ⊢
    rw [fetch_loop n hm]
    exact this
  | false =>
    refine ⟨1, [], { s with key := none }, [], ⟨rfl, rfl, rfl, rfl, rfl, rfl, by simp [Sel.idx], by simp [fols], h.tok,
      fun _ h => h, fun _ h => h, fun _ _ _ h => (List.not_mem_nil h).elim, fun k t _ h _ _ => ⟨t, h, rfl, .inl rfl⟩,
      fun k t h1 h2 => by have := (List.getElem?_eq_some_iff.1 h2).1; simp only [] at this; omega,
      fun _ h => h.elim .inl fun h => .inr (.inl h)⟩, ?_,
      .inr ⟨rfl, rfl, rfl, rfl, rfl⟩⟩
    intro n hn
    obtain ⟨n', rfl⟩ : ∃ n', n = n' + 1 := ⟨n - 1, by omega⟩
    have h1 : Sel.fetch (n' + 1) s = (.ok 0, { s with key := none }) := by
      unfold Sel.fetch
      rw [M.bind_ok (M.get_run _), if_neg (by rw [hm]; simp)]
      rfl
    rw [M.bind_ok h1]
    rfl

/-- The token at a position belongs to a state and looks for the items of a type. -/
def live (toks : List Token) (j : Nat) (type : ElementType) (i : Nat) : Bool :=
  match toks[i]? with
  | some t => t.stateidx == j && t.core.mask.matches type
  | none => false

namespace Visits

variable {type : ElementType} {toks : List Token} {vs X : List Nat} {rs : List Int}

theorem mem (v : Visits a type key toks vs X rs) : ∀ t ∈ X, ∃ i ∈ vs, ∃ tk st, toks[i]? = some tk ∧
    a[tk.stateidx]? = some st ∧ Ok.EdgeOf a tk.stateidx t ∧ st.core.mask.matches type = true := by
  induction v with
  | nil => intro t ht; cases ht
  | @cons i tk st l X vs Y r rs h1 h2 h3 h4 h5 h6 _ ih =>
    intro t ht
    rcases List.mem_append.1 ht with ht | ht
    · rcases h4 with rfl | ⟨rfl, h7, -⟩
      · cases ht
      · exact ⟨i, List.mem_cons_self .., tk, st, h1, h2, ⟨st, X, h2, h3, ht⟩, h7⟩
    · obtain ⟨k, hk, h⟩ := ih t ht
      exact ⟨k, List.mem_cons_of_mem _ hk, h⟩

theorem edge (v : Visits a type key toks vs X rs) : ∀ t ∈ X, ∃ s, Ok.EdgeOf a s t := by
  intro t ht
  obtain ⟨_, _, tk, _, _, _, h, _⟩ := v.mem t ht
  exact ⟨_, h⟩

theorem lt (v : Visits a type key toks vs X rs) : ∀ t ∈ X, t < a.length := by
  intro t ht
  obtain ⟨s, st, l, _, c, hl⟩ := v.edge t ht
  exact c.mem_lt t hl

/-- A state is activated as often as tokens of the state before are visited. -/
theorem count (ok : Ok a lab) (v : Visits a type key toks vs X rs) {s0 t : Nat} {st : State} (hs : a[s0]? = some st)
    (ht : Ok.EdgeOf a s0 t) (hr : st.core.mask.rejects type = false) :
    X.count t = if accepts st.key key then vs.countP (live toks s0 type) else 0 := by
  induction v with
  | nil => simp
  | @cons i tk st' l X vs Y r rs h1 h2 h3 h4 h5 h6 _ ih =>
    rw [List.count_append, ih, List.countP_cons]
    by_cases hj : tk.stateidx = s0
    · rw [hj, hs] at h2
      cases h2
      obtain ⟨st2, l2, g1, g2, g3⟩ := ht
      rw [hs] at g1
      cases g1
      have := h3.det g2
      subst this
      have he : st.core.cntEnd = -1 := by
        cases hn : st.next with
        | none =>
          rw [hn] at h3
          cases h3
          cases g3
        | some j => exact (ok.edge s0 st j hs hn).2.1
      obtain ⟨l3, g4, g5, -⟩ := ok.chain_next hs
      have := h3.det g4
      subst this
      have hl : live toks s0 type i = tk.core.mask.matches type := by
        unfold live
        rw [h1]
        simp [hj]
      rw [(h6 he hr).1, hl]
      by_cases hc : accepts st.key key
      · by_cases hm : tk.core.mask.matches type = true
        · rw [if_pos ⟨hm, hc⟩, if_pos hc, if_pos hc, if_pos hm, g5.count, if_pos g3]
          omega
        · rw [if_neg (fun h => hm h.1), if_pos hc, if_pos hc, if_neg hm]
          simp
      · rw [if_neg (fun h => hc h.2), if_neg hc, if_neg hc]
        rfl
    · have : X.count t = 0 := by
        rw [List.count_eq_zero]
        intro hX
        rcases h4 with rfl | ⟨rfl, -⟩
        · cases hX
        · exact hj (ok.edgeOf_inj ⟨st', X, h2, h3, hX⟩ ht)
      have hl : live toks s0 type i = false := by
        unfold live
        rw [h1]
        simp [hj]
      rw [this, hl]
      simp

end Visits

/-- The step to an attribute. -/
def attrMask : Mask := ({} : Mask).seekop .Attribute
/-- The output of contents. -/
def contMask : Mask := ({} : Mask).seekop .Content
/-- The step to a close tag. -/
def closeMask : Mask := ({} : Mask).seekop .CloseTag

/-- No contents are asked for. -/
def NoCont (a : Atm) : Prop := ∀ (j : Nat) (st : State), a[j]? = some st → st.core.mask.matches .Content = false

/-- An attribute of elements selected by steps, or of all elements in them. -/
structure AttrOf (a : Atm) (G : List Edge → Prop) (M L : List Edge) (e : Edge) : Prop where
  lab : M = L ++ [e]
  good : G L
  mask : e.mask = attrMask
  free : e.follow = true → NoCont a

/-- The ways to the elements whose attributes are looked for: the element itself, or also those containing it. -/
def pool (B : List Edge → Nat) (e : Edge) (L : List Edge) (q : List Open) : Nat :=
  W B L q + (if e.follow then below B L q else 0)

/-- The types looked at: steps over tags, with conditions for attributes, with outputs for the tags themselves, for contents, for
the values of attributes or for close tags. `G` are the lists of steps leading to the elements, and their beginnings. -/
structure Goal (a : Atm) (lab : List (List Edge)) (ty : Int) (G : List Edge → Prop) : Prop where
  ok : Ok a lab
  ty0 : ty ≠ 0
  pre : ∀ L e, G (L ++ [e]) → (G L ∧ e.mask = tagMask) ∨ (e.mask = valMask ∧ e.follow = false ∧ ∃ L' e', AttrOf a G L L' e' ∧ L' ≠ [] ∧ e'.follow = false)
  out : ∀ (j : Nat) (st : State), a[j]? = some st → st.core.typeidx = ty → ∃ L, lab[j]? = some L ∧
    ((st.core.mask = {} ∧ ((G L ∧ L ≠ []) ∨ ∃ L' e, L = L' ++ [e] ∧ G L' ∧ e.mask = closeMask ∧ e.key = none)) ∨ (st.core.mask = contMask ∧ G L) ∨
     (st.core.mask = valMask ∧ st.core.follow = false ∧ ∃ L' e, AttrOf a G L L' e))

/-- The outputs of the type have no ranges. -/
def Flat (a : Atm) (ty : Int) : Prop :=
  ∀ (j : Nat) (st : State), a[j]? = some st → st.core.typeidx = ty → st.core.mask ≠ {} → st.core.cntEnd = -1

/-- The tokens of the levels, the innermost first, and the path of the innermost from its end. -/
def Cnt (a : Atm) (lab : List (List Edge)) (G : List Edge → Prop) (B : List Edge → Nat) : List (List Nat) → List Open → Prop
  | [], _ => False
  | T :: R, q => (∀ t L, lab[t]? = some L → G L → trig a t = false → T.count t = W B L q) ∧
      (∀ t M L e, lab[t]? = some M → AttrOf a G M L e → pool B e L q = 0 → T.count t = 0) ∧
      match q with
      | [] => R = []
      | _ :: q => Cnt a lab G B R q

/-- The masks of a scope let pass what its tokens look for. -/
def Covers (a : Atm) (sc : Scope) : List (List Nat) → Prop
  | [] => True
  | T :: R => ∀ (j : Nat) (st : State) (ty : ElementType), a[j]? = some st → st.core.mask.matches ty = true →
      (j ∈ T → sc.mask.matches ty = true) ∧
      (j ∈ T ∨ j ∈ R.flatten → st.core.follow = true → sc.mask.matches ty = true ∧ sc.followMask.matches ty = true)

/-- The scopes of the levels. -/
def Stk (a : Atm) : List Scope → List (List Nat) → Prop
  | [], R => R.length = 1
  | sc :: stk, _ :: R => sc.tokenFrom = R.tail.flatten.length ∧ sc.tokenTo = R.flatten.length ∧
      sc.followidx = (R.flatten.countP (isFollow a)) ∧ Covers a sc R ∧ Stk a stk R
  | _ :: _, [] => False

theorem Cnt.below (G : List Edge → Prop) : ∀ (q : List Open) (T : List Nat) (R : List (List Nat)),
    Cnt a lab G B (T :: R) q → ∀ t L, lab[t]? = some L → G L → trig a t = false → R.flatten.count t = below B L q := by
  intro q
  induction q with
  | nil =>
    intro T R h t L h1 h2 h3
    obtain ⟨-, -, rfl⟩ := h
    rfl
  | cons n q ih =>
    intro T R h t L h1 h2 h3
    obtain ⟨-, -, h4⟩ := h
    cases R with
    | nil => exact h4.elim
    | cons T' R =>
      have := ih T' R h4 t L h1 h2 h3
      rw [List.flatten_cons, List.count_append, this]
      show _ = W B L q + Path.below B L q
      rw [(by
        cases q <;> exact h4.1 t L h1 h2 h3 : T'.count t = W B L q)]

/-- Where in a tag or in the header: at the begin of the stream, outside, among the attributes, or behind the name of an attribute. -/
inductive Ph where
  | start
  | off
  | tag
  | named (name : List Byte)

def Ph.next (ph : Ph) (type : ElementType) (key : List Byte) : Ph :=
  match type, ph with
  | .OpenTag, _ => .tag
  | .HeaderStart, .start => .tag
  | .TagAttribName, .tag => .named key
  | .TagAttribName, .named _ => .named key
  | .HeaderAttribName, .tag => .named key
  | .HeaderAttribName, .named _ => .named key
  | .TagAttribValue, .tag => .tag
  | .TagAttribValue, .named _ => .tag
  | .HeaderAttribValue, .tag => .tag
  | .HeaderAttribValue, .named _ => .tag
  | _, _ => .off

/-- The tokens of an element looking for an attribute of it are alive in the tag. Behind the name of an attribute the
tokens looking for its value are counted. -/
structure Att (a : Atm) (lab : List (List Edge)) (G : List Edge → Prop) (B : List Edge → Nat) (ph : Ph) (q : List Open) (R : List (List Nat))
    (toks : List Token) : Prop where
  alive : ph ≠ .off → ∀ (k : Nat) (tk : Token) (st : State), R.tail.flatten.length ≤ k → toks[k]? = some tk →
    a[tk.stateidx]? = some st → st.core.mask = attrMask → st.core.cntEnd = -1 → tk.core = st.core
  deep : NoCont a → ∀ (k : Nat) (tk : Token) (st : State), toks[k]? = some tk → a[tk.stateidx]? = some st →
    st.core.mask = attrMask → st.core.follow = true → st.core.cntEnd = -1 → tk.core = st.core
  named : ∀ name, ph = .named name → ∀ (j : Nat) (st : State) (M L : List Edge) (e : Edge), a[j]? = some st →
    lab[j]? = some M → AttrOf a G M L e → st.core.mask = valMask →
    (List.range' R.tail.flatten.length (toks.length - R.tail.flatten.length)).countP (live toks j .TagAttribValue) =
      if accepts e.key name then pool B e L q else 0

/-- The selector between two items. -/
structure Inv (a : Atm) (lab : List (List Edge)) (ty : Int) (G : List Edge → Prop) (B : List Edge → Nat) (ph : Ph) (q : List Open)
    (R : List (List Nat)) (s : Sel) : Prop where
  atm : s.atm = a
  tok : TokOk a s
  idx : s.idx = R.reverse.flatten
  follows : s.follows = fols a 0 s.idx
  stk : Stk a s.scopestk R
  cnt : Cnt a lab G B R q
  from' : (if s.type = .OpenTag then s.scope.tokenTo else s.scope.tokenFrom) = R.tail.flatten.length
  trg : ∀ x ∈ s.triggers, x ≠ 0 ∧ x ≠ ty
  cover : Covers a s.scope R
  att : Att a lab G B ph q R s.tokens
  quiet : NoCont a → ∀ sc ∈ s.scope :: s.scopestk, sc.mask.matches .Content = false ∧ sc.followMask.matches .Content = false

theorem fols_length (a : Atm) (l : List Nat) : ∀ off, (fols a off l).length = l.countP (isFollow a) := by
  induction l with
  | nil => intro off; rfl
  | cons i l ih =>
    intro off
    simp only [fols, List.length_append, ih, List.countP_cons]
    split <;> simp <;> omega

theorem fols_ge (a : Atm) (l : List Nat) : ∀ off, ∀ i ∈ fols a off l, off ≤ i ∧ i < off + l.length := by
  induction l with
  | nil => intro off i hi; cases hi
  | cons x l ih =>
    intro off i hi
    rcases List.mem_append.1 hi with hi | hi
    · split at hi
      · simp at hi; subst hi; simp
      · cases hi
    · have := ih _ i hi
      simp only [List.length_cons]
      omega

theorem fols_count (a : Atm) (l : List Nat) (s0 : Nat) : ∀ (pre : List Nat) (post : List Nat),
    (fols a pre.length l).countP (fun i => (pre ++ l ++ post)[i]? == some s0) = if isFollow a s0 then l.count s0 else 0 := by
  induction l with
  | nil => intro pre post; simp [fols]
  | cons x l ih =>
    intro pre post
    have e1 : fols a pre.length (x :: l) = (if isFollow a x then [pre.length] else []) ++ fols a (pre ++ [x]).length l := by
      simp [fols]
    have e2 : pre ++ x :: l ++ post = (pre ++ [x]) ++ l ++ post := by simp
    rw [e1, e2, List.countP_append, ih, List.count_cons]
    have e3 : ((pre ++ [x]) ++ l ++ post)[pre.length]? = some x := by
      simp
    by_cases hx : x = s0
    · subst hx
      cases hf : isFollow a x with
      | false => simp
      | true =>
        simp only [if_true, List.countP_cons, List.countP_nil, e3, beq_self_eq_true]
        omega
    · have hx' : (some x == some s0) = false := by simpa using hx
      have hx2 : (x == s0) = false := by simpa using hx
      rw [hx2]
      cases hf : isFollow a x with
      | false => simp
      | true =>
        simp only [if_true, List.countP_cons, List.countP_nil, e3, hx', Bool.false_eq_true, if_false, Nat.zero_add, Nat.add_zero]

theorem range_count (l : List Nat) (s0 : Nat) : ∀ (pre : List Nat),
    (List.range' pre.length l.length).countP (fun i => (pre ++ l)[i]? == some s0) = l.count s0 := by
  induction l with
  | nil => intro pre; simp
  | cons x l ih =>
    intro pre
    have := ih (pre ++ [x])
    rw [List.append_assoc, List.singleton_append] at this
    rw [List.length_cons, List.range'_succ, List.countP_cons, List.count_cons]
    simp only [List.length_append, List.length_cons, List.length_nil, Nat.zero_add] at this
    rw [this]
    have e3 : (pre ++ x :: l)[pre.length]? = some x := by simp
    rw [e3]
    simp

theorem takeWhile_fols (a : Atm) (l m : List Nat) :
    (fols a 0 (l ++ m)).takeWhile (· < l.length) = fols a 0 l := by
  rw [fols_append, Nat.zero_add, List.takeWhile_append_of_pos]
  · cases h : fols a l.length m with
    | nil => simp
    | cons x y =>
      have := (fols_ge a m l.length x (by rw [h]; exact List.mem_cons_self ..)).1
      rw [List.takeWhile_cons]
      simp
      omega
  · intro x hx
    have := fols_ge a l 0 x hx
    simpa using this.2

end TW.Path
