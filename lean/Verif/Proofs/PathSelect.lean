import Verif.Proofs.PathAutomaton

/-!
# What the selector does with an item
-/

namespace TW.Path

/-- The state only triggers an output. -/
def trig (a : Atm) (i : Nat) : Bool :=
  match a[i]? with
  | some st => st.core.mask.empty && st.core.typeidx ≠ 0
  | none => false

/-- The state is searched in all descendants. -/
def isFollow (a : Atm) (i : Nat) : Bool :=
  match a[i]? with
  | some st => st.core.follow
  | none => false

/-- The type of the output of the state. -/
def typ (a : Atm) (i : Nat) : Int :=
  match a[i]? with
  | some st => st.core.typeidx
  | none => 0

/-- The positions of the states searched in all descendants. -/
def fols (a : Atm) : Nat → List Nat → List Nat
  | _, [] => []
  | off, i :: l => (if isFollow a i then [off] else []) ++ fols a (off + 1) l

theorem fols_append (a : Atm) (off : Nat) (l m : List Nat) :
    fols a off (l ++ m) = fols a off l ++ fols a (off + l.length) m := by
  induction l generalizing off with
  | nil => simp [fols]
  | cons i l ih =>
    simp only [List.cons_append, fols, ih, List.append_assoc, List.length_cons]
    congr 3
    omega

/-- The step to a child or descendant tag. -/
def tagMask : Mask := ({} : Mask).seekop .OpenTag

/-- The tokens of the state stay as they are: they do not count, and no item makes them give up. -/
def State.steady (st : State) : Prop := st.core.cntEnd = -1 ∧ st.core.mask.neg = 0

/-- The core of a token that has given up. -/
def Core.dead (c : Core) : Core := { c with mask := {} }

/-- The name is accepted. -/
def accepts (key : Option (List Byte)) (name : List Byte) : Prop :=
  match key with
  | some k => k = name
  | none => True

instance (key : Option (List Byte)) (name : List Byte) : Decidable (accepts key name) := by
  unfold accepts
  split <;> infer_instance

/-- The tokens belong to their states; those that do not count only can give up. -/
def TokOk (a : Atm) (s : Sel) : Prop :=
  ∀ tk ∈ s.tokens, ∃ st, a[tk.stateidx]? = some st ∧ tk.core.typeidx = st.core.typeidx ∧
    (tk.core.mask = st.core.mask ∨ tk.core.mask = {}) ∧
    (st.core.cntEnd = -1 → tk.core = st.core ∨ tk.core = st.core.dead) ∧ (st.steady → tk.core = st.core)

/-- The states of the tokens. -/
def Sel.idx (s : Sel) : List Nat := s.tokens.map (·.stateidx)

/-- States have been activated. -/
structure Grew (a : Atm) (s s' : Sel) (X : List Nat) : Prop where
  atm : s'.atm = s.atm
  stk : s'.scopestk = s.scopestk
  type : s'.type = s.type
  key : s'.key = s.key
  from' : s'.scope.tokenFrom = s.scope.tokenFrom
  to : s'.scope.tokenTo = s.scope.tokenTo
  fidx : s'.scope.followidx = s.scope.followidx
  mask : ∀ t, s.scope.mask.matches t = true → s'.scope.mask.matches t = true
  idx : s'.idx = s.idx ++ X.filter (!trig a ·)
  follows : s'.follows = s.follows ++ fols a s.tokens.length (X.filter (!trig a ·))
  triggers : s'.triggers = ((X.filter (trig a)).map (typ a)).reverse ++ s.triggers
  tok : TokOk a s → TokOk a s'
  fmask : ∀ t, s.scope.followMask.matches t = true → s'.scope.followMask.matches t = true
  cover : ∀ (j : Nat) (st : State) (t : ElementType), j ∈ X → a[j]? = some st → st.core.mask.matches t = true →
    s'.scope.mask.matches t = true ∧ (st.core.follow = true → s'.scope.followMask.matches t = true)
  life : TokOk a s → ∀ (k : Nat) (t : Token) (st : State), s.tokens[k]? = some t → a[t.stateidx]? = some st →
    st.core.cntEnd = -1 → ∃ t', s'.tokens[k]? = some t' ∧ t'.stateidx = t.stateidx ∧
      (t'.core = t.core ∨ t'.core = t.core.dead ∧ t.core.mask.rejects s.type = true)
  keep : ∀ k, s.scope.tokenTo ≤ k → k < s.tokens.length → s'.tokens[k]? = s.tokens[k]?
  fresh : s.scope.tokenTo ≤ s.tokens.length → ∀ (k : Nat) (t : Token), s.tokens.length ≤ k → s'.tokens[k]? = some t →
    ∃ st, a[t.stateidx]? = some st ∧ t.core = st.core
  only : ∀ t, s'.scope.mask.matches t = true ∨ s'.scope.followMask.matches t = true →
    s.scope.mask.matches t = true ∨ s.scope.followMask.matches t = true ∨
      ∃ j ∈ X, ∃ st, a[j]? = some st ∧ st.core.mask.matches t = true

namespace Grew

variable {a : Atm} {s s' s'' : Sel} {X Y : List Nat}

theorem len (h : Grew a s s' X) : s'.tokens.length = s.tokens.length + (X.filter (!trig a ·)).length := by
  have := congrArg List.length h.idx
  simpa [Sel.idx] using this

theorem refl (a : Atm) (s : Sel) : Grew a s s [] :=
  ⟨rfl, rfl, rfl, rfl, rfl, rfl, rfl, fun _ h => h, by simp, by simp [fols], by simp, id, fun _ h => h,
    fun _ _ _ h => (List.not_mem_nil h).elim, fun _ k t _ h _ _ => ⟨t, h, rfl, .inl rfl⟩, fun _ _ _ => rfl,
    fun _ k t h1 h2 => by have := (List.getElem?_eq_some_iff.1 h2).1; omega,
    fun _ h => h.elim .inl fun h => .inr (.inl h)⟩

theorem trans (h : Grew a s s' X) (g : Grew a s' s'' Y) : Grew a s s'' (X ++ Y) := by
  refine ⟨g.atm.trans h.atm, g.stk.trans h.stk, g.type.trans h.type, g.key.trans h.key, g.from'.trans h.from',
    g.to.trans h.to, g.fidx.trans h.fidx, fun t ht => g.mask t (h.mask t ht), ?_, ?_, ?_, fun t => g.tok (h.tok t),
    fun t ht => g.fmask t (h.fmask t ht), ?_, ?_, ?_, ?_, ?_⟩
  · rw [g.idx, h.idx, List.filter_append, List.append_assoc]
  · rw [g.follows, h.follows, List.filter_append, fols_append, h.len, List.append_assoc]
  · rw [g.triggers, h.triggers, List.filter_append, List.map_append, List.reverse_append, List.append_assoc]
  · intro j st t hj h1 h2
    rcases List.mem_append.1 hj with hj | hj
    · obtain ⟨h3, h4⟩ := h.cover j st t hj h1 h2
      exact ⟨g.mask t h3, fun hf => g.fmask t (h4 hf)⟩
    · exact g.cover j st t hj h1 h2
  · intro tok k t st h1 h2 h3
    obtain ⟨t1, e1, e2, e3⟩ := h.life tok k t st h1 h2 h3
    obtain ⟨t2, f1, f2, f3⟩ := g.life (h.tok tok) k t1 st e1 (by rw [e2]; exact h2) h3
    refine ⟨t2, f1, f2.trans e2, ?_⟩
    rw [h.type] at f3
    rcases e3 with e3 | ⟨e3, e4⟩
    · rw [e3] at f3; exact f3
    · rw [e3] at f3
      rcases f3 with f3 | ⟨f3, -⟩
      · exact .inr ⟨f3, e4⟩
      · exact .inr ⟨f3, e4⟩
  · intro k h1 h2
    rw [g.keep k (by rw [h.to]; exact h1) (by rw [h.len]; omega), h.keep k h1 h2]
  · intro h0 k t h1 h2
    by_cases hk : k < s'.tokens.length
    · rw [g.keep k (by rw [h.to]; omega) hk] at h2
      exact h.fresh h0 k t h1 h2
    · exact g.fresh (by rw [h.to, h.len]; omega) k t (by omega) h2
  · intro t ht
    have low : s'.scope.mask.matches t = true ∨ s'.scope.followMask.matches t = true → s.scope.mask.matches t = true ∨
        s.scope.followMask.matches t = true ∨ ∃ j ∈ X ++ Y, ∃ st, a[j]? = some st ∧ st.core.mask.matches t = true := by
      intro k
      rcases h.only t k with k | k | ⟨j, k1, k2⟩
      · exact .inl k
      · exact .inr (.inl k)
      · exact .inr (.inr ⟨j, List.mem_append_left Y k1, k2⟩)
    rcases g.only t ht with k | k | ⟨j, k1, k2⟩
    · exact low (.inl k)
    · exact low (.inr k)
    · exact .inr (.inr ⟨j, List.mem_append_right X k1, k2⟩)

end Grew

theorem Mask.join_matches (m o : Mask) (t : ElementType) : (m.join o).matches t = (m.matches t || o.matches t) := by
  unfold Mask.join Mask.matches
  exact Nat.testBit_or ..

/-- One state is activated. -/
theorem activate_grew {a : Atm} {s : Sel} {i : Nat} {st : State} (h : a[i]? = some st) :
    Grew a s (Sel.activate st i s) [i] := by
  have ht : trig a i = (st.core.mask.empty && st.core.typeidx ≠ 0) := by unfold trig; rw [h]
  have hf : isFollow a i = st.core.follow := by unfold isFollow; rw [h]
  have hy : typ a i = st.core.typeidx := by unfold typ; rw [h]
  have hj : ∀ t, s.scope.mask.matches t = true → (s.scope.mask.join st.core.mask).matches t = true := by
    intro t ht
    rw [Mask.join_matches, ht]; rfl
  have hu : ∀ (m : Mask) t, (m.join st.core.mask).matches t = true → m.matches t = true ∨
      ∃ j ∈ [i], ∃ st, a[j]? = some st ∧ st.core.mask.matches t = true := by
    intro m t ht
    rw [Mask.join_matches, Bool.or_eq_true] at ht
    exact ht.imp_right fun k => ⟨i, List.mem_singleton_self i, st, h, k⟩
  by_cases hc : st.core.mask.empty ∧ st.core.typeidx ≠ 0
  · have ht' : trig a i = true := by rw [ht]; simpa using hc
    unfold Sel.activate
    simp only [hc, if_true, not_false_eq_true, ne_eq, and_self]
    refine ⟨rfl, rfl, rfl, rfl, rfl, rfl, rfl, hj, by simp [ht', Sel.idx], by simp [ht', fols], by simp [ht', hy],
      fun t => t, fun _ h => h, ?_, fun _ k t _ h _ _ => ⟨t, h, rfl, .inl rfl⟩, fun _ _ _ => rfl,
      fun _ k t h1 h2 => by have := (List.getElem?_eq_some_iff.1 h2).1; simp only [] at this; omega,
      fun t ht => ht.elim (fun k => (hu _ t k).imp_right .inr) fun k => .inr (.inl k)⟩
    intro j st' t hj' h1 h2
    rw [List.mem_singleton] at hj'
    subst hj'
    rw [h] at h1
    cases h1
    have := hc.1
    unfold Mask.empty at this
    unfold Mask.matches at h2
    rw [of_decide_eq_true this] at h2
    simp at h2
  · have ht' : trig a i = false := by
      rw [ht, ← Bool.not_eq_true]; simpa using hc
    unfold Sel.activate
    rw [if_neg hc]
    have tok : ∀ s1 : Sel, s1.tokens = s.tokens ++ [{ core := st.core, stateidx := i }] → TokOk a s → TokOk a s1 := by
      intro s1 e h1 tk htk
      rw [e] at htk
      rcases List.mem_append.1 htk with htk | htk
      · exact h1 tk htk
      · simp only [List.mem_singleton] at htk
        subst htk
        exact ⟨st, h, rfl, .inl rfl, fun _ => .inl rfl, fun _ => rfl⟩
    have life : ∀ s1 : Sel, s1.tokens = s.tokens ++ [{ core := st.core, stateidx := i }] →
        TokOk a s → ∀ (k : Nat) (t : Token) (st : State), s.tokens[k]? = some t → a[t.stateidx]? = some st →
        st.core.cntEnd = -1 → ∃ t', s1.tokens[k]? = some t' ∧ t'.stateidx = t.stateidx ∧
          (t'.core = t.core ∨ t'.core = t.core.dead ∧ t.core.mask.rejects s.type = true) := by
      intro s1 e _ k t st h1 _ _
      refine ⟨t, ?_, rfl, .inl rfl⟩
      rw [e, List.getElem?_append_left (List.getElem?_eq_some_iff.1 h1).1, h1]
    have keep : ∀ s1 : Sel, s1.tokens = s.tokens ++ [{ core := st.core, stateidx := i }] →
        ∀ k, s.scope.tokenTo ≤ k → k < s.tokens.length → s1.tokens[k]? = s.tokens[k]? := by
      intro s1 e k _ hk
      rw [e, List.getElem?_append_left hk]
    have fresh : ∀ s1 : Sel, s1.tokens = s.tokens ++ [{ core := st.core, stateidx := i }] →
        s.scope.tokenTo ≤ s.tokens.length → ∀ (k : Nat) (t : Token), s.tokens.length ≤ k → s1.tokens[k]? = some t →
        ∃ st, a[t.stateidx]? = some st ∧ t.core = st.core := by
      intro s1 e _ k t hk h1
      rw [e, List.getElem?_append_right hk] at h1
      have := List.mem_of_getElem? h1
      rw [List.mem_singleton] at this
      subst this
      exact ⟨st, h, rfl⟩
    cases hfo : st.core.follow with
    | false =>
      simp only [Bool.false_eq_true, if_false]
      refine ⟨rfl, rfl, rfl, rfl, rfl, rfl, rfl, hj, by simp [ht', Sel.idx], by simp [ht', fols, hf, hfo],
        by simp [ht'], tok _ rfl, fun _ h => h, ?_, life _ rfl, keep _ rfl, fresh _ rfl,
        fun t ht => ht.elim (fun k => (hu _ t k).imp_right .inr) fun k => .inr (.inl k)⟩
      intro j st' t hj' h1 h2
      rw [List.mem_singleton] at hj'
      subst hj'
      rw [h] at h1
      cases h1
      refine ⟨?_, fun h => by rw [hfo] at h; cases h⟩
      show (s.scope.mask.join st.core.mask).matches t = true
      rw [Mask.join_matches, h2, Bool.or_true]
    | true =>
      simp only [if_true]
      refine ⟨rfl, rfl, rfl, rfl, rfl, rfl, rfl, hj, by simp [ht', Sel.idx], by simp [ht', fols, hf, hfo],
        by simp [ht'], tok _ rfl, ?_, ?_, life _ rfl, keep _ rfl, fresh _ rfl,
        fun t ht => ht.elim (fun k => (hu _ t k).imp_right .inr) fun k => .inr (hu _ t k)⟩
      · intro t ht
        show (s.scope.followMask.join st.core.mask).matches t = true
        rw [Mask.join_matches, ht]; rfl
      · intro j st' t hj' h1 h2
        rw [List.mem_singleton] at hj'
        subst hj'
        rw [h] at h1
        cases h1
        constructor
        · show (s.scope.mask.join st.core.mask).matches t = true
          rw [Mask.join_matches, h2, Bool.or_true]
        · intro _
          show (s.scope.followMask.join st.core.mask).matches t = true
          rw [Mask.join_matches, h2, Bool.or_true]

/-- A chain is activated. -/
theorem expand_run {a : Atm} {h : Option Nat} {l : List Nat} (c : Chain a h l) : ∀ {s : Sel} {n : Nat},
    s.atm = a → l.length ≤ n → ∃ s', Sel.expand n h s = (.ok (), s') ∧ Grew a s s' l ∧ s'.iter = s.iter := by
  induction c with
  | nil => intro s n _ _; exact ⟨s, by unfold Sel.expand; rfl, Grew.refl a s, rfl⟩
  | @cons i st l hs c ih =>
    intro s n hs' hn
    cases n with
    | zero => simp at hn
    | succ n =>
      have h1 : Sel.stateAt i s = (.ok st, s) := by unfold Sel.stateAt; rw [hs', hs]
      have g := activate_grew (s := s) hs
      have hit : (Sel.activate st i s).iter = s.iter := by
        unfold Sel.activate
        split
        · rfl
        · cases st.core.follow <;> rfl
      obtain ⟨s', h2, h3, h4⟩ := ih (s := Sel.activate st i s) (n := n) (g.atm.trans hs')
        (by simp only [List.length_cons] at hn; omega)
      refine ⟨s', ?_, g.trans h3, h4.trans hit⟩
      unfold Sel.expand
      rw [M.bind_ok h1, M.bind_ok (M.modify_run _ _), h2]

/-- The core of a token is changed. -/
def setCore (s : Sel) (i : Nat) (t : Token) (c : Core) : Sel :=
  { s with tokens := s.tokens.set i { t with core := c } }

theorem change_eq {s : Sel} {i : Nat} {t : Token} {g : Core → Core} (h : s.tokens[i]? = some t) :
    Sel.change i g s = (.ok (), setCore s i t (g t.core)) := by
  unfold Sel.change
  rw [h]
  rfl

theorem setCore_get {s : Sel} {i : Nat} {t : Token} {c : Core} (h : s.tokens[i]? = some t) :
    (setCore s i t c).tokens[i]? = some { t with core := c } :=
  List.getElem?_set_self (List.getElem?_eq_some_iff.1 h).1

theorem setCore_grew {a : Atm} {s : Sel} {i : Nat} {t : Token} {c : Core} {st : State} (h : s.tokens[i]? = some t)
    (hst : a[t.stateidx]? = some st) (hi : i < s.scope.tokenTo) (h1 : c.typeidx = t.core.typeidx)
    (h2 : c.mask = t.core.mask ∨ c.mask = {})
    (h3 : t.core.cntEnd = -1 → c = t.core.dead ∧ t.core.mask.rejects s.type = true) :
    Grew a s (setCore s i t c) [] := by
  have hend : ∀ st, a[t.stateidx]? = some st → TokOk a s → st.core.cntEnd = -1 → t.core.cntEnd = -1 := by
    intro st' hst' tok he
    rw [hst] at hst'
    cases hst'
    obtain ⟨st', e1, -, -, e4, -⟩ := tok t (List.mem_of_getElem? h)
    rw [hst] at e1
    cases e1
    rcases e4 he with e | e
    · rw [e]; exact he
    · rw [e]; exact he
  refine ⟨rfl, rfl, rfl, rfl, rfl, rfl, rfl, fun _ h => h, ?_, ?_, ?_, ?_, fun _ h => h,
    fun _ _ _ h => (List.not_mem_nil h).elim, ?_, ?_, ?_, fun _ h => h.elim .inl fun h => .inr (.inl h)⟩
  · have : (setCore s i t c).idx = s.idx := by
      unfold setCore Sel.idx
      rw [List.map_set]
      apply List.ext_getElem?
      intro k
      by_cases hk : k = i
      · subst hk
        rw [List.getElem?_set_self (by simpa using (List.getElem?_eq_some_iff.1 h).1)]
        simp [h]
      · rw [List.getElem?_set_ne (fun h => hk h.symm)]
    simp [this]
  · simp [setCore, fols]
  · simp [setCore]
  · intro tok tk htk
    have := List.mem_or_eq_of_mem_set htk
    rcases this with h4 | rfl
    · exact tok tk h4
    · obtain ⟨st', e1, e2, e3, e4, e5⟩ := tok t (List.mem_of_getElem? h)
      rw [hst] at e1
      cases e1
      refine ⟨st, hst, h1.trans e2, ?_, fun he => ?_, fun hs => ?_⟩
      · rcases h2 with h2 | h2
        · rcases e3 with e3 | e3
          · exact .inl (h2.trans e3)
          · exact .inr (h2.trans e3)
        · exact .inr h2
      · right
        show c = _
        rw [(h3 (hend st hst tok he)).1]
        rcases e4 he with e | e
        · rw [e]
        · rw [e]; rfl
      · have := (h3 (hend st hst tok hs.1)).2
        rw [e5 hs] at this
        unfold Mask.rejects at this
        rw [hs.2] at this
        simp at this
  · intro tok k t1 st1 k1 k2 k3
    by_cases hk : k = i
    · subst hk
      rw [h] at k1
      cases k1
      refine ⟨_, setCore_get h, rfl, .inr (h3 (hend st1 k2 tok k3))⟩
    · refine ⟨t1, ?_, rfl, .inl rfl⟩
      unfold setCore
      simp only []
      rw [List.getElem?_set_ne (fun h => hk h.symm), k1]
  · intro k hk _
    unfold setCore
    simp only []
    rw [List.getElem?_set_ne (by omega)]
  · intro _ k t1 hk k1
    have := (List.getElem?_eq_some_iff.1 k1).1
    simp only [setCore, List.length_set] at this
    omega

theorem Grew.get {a : Atm} {s s' : Sel} {X : List Nat} (g : Grew a s s' X) {i : Nat} {t : Token}
    (h : s.tokens[i]? = some t) : ∃ t', s'.tokens[i]? = some t' ∧ t'.stateidx = t.stateidx := by
  have h1 : s.idx[i]? = some t.stateidx := by unfold Sel.idx; rw [List.getElem?_map, h]; rfl
  have hi : i < s.idx.length := (List.getElem?_eq_some_iff.1 h1).1
  have h2 : s'.idx[i]? = some t.stateidx := by rw [g.idx, List.getElem?_append_left hi, h1]
  unfold Sel.idx at h2
  rw [List.getElem?_map] at h2
  cases h3 : s'.tokens[i]? with
  | none => rw [h3] at h2; cases h2
  | some t' => rw [h3] at h2; exact ⟨t', rfl, Option.some.inj h2⟩

theorem tokenAt_eq {s : Sel} {i : Nat} {t : Token} (h : s.tokens[i]? = some t) : Sel.tokenAt i s = (.ok t, s) := by
  unfold Sel.tokenAt
  rw [h]

section

variable {a : Atm} {lab : List (List Edge)} {s : Sel} {i : Nat} {t : Token} {st : State} {l : List Nat}

theorem setCore_twice {c d : Core} : setCore (setCore s i t c) i { t with core := c } d = setCore s i t d := by
  unfold setCore
  simp

theorem count_core (c : Core) : (Sel.count c).typeidx = c.typeidx ∧
    ((Sel.count c).mask = c.mask ∨ (Sel.count c).mask = {}) := by
  refine ⟨rfl, ?_⟩
  unfold Sel.count
  by_cases h : c.cntEnd - 1 = 0
  · exact .inr (if_pos h)
  · exact .inl (if_neg h)

theorem produce_run (hs : s.atm = a) (h : s.tokens[i]? = some t) (hst : a[t.stateidx]? = some st)
    (hi : i < s.scope.tokenTo) (c : Chain a st.next l) (hl : l.length ≤ a.length) :
    ∃ s' X, Sel.produce i st s = (.ok (), s') ∧ Grew a s s' X ∧ s'.iter = s.iter ∧ (X = [] ∨ X = l) ∧
      (t.core.cntEnd = -1 → X = l) := by
  unfold Sel.produce
  rw [M.bind_ok (M.get_run _), M.bind_ok (tokenAt_eq h), hs]
  by_cases h1 : t.core.cntEnd = -1
  · rw [if_pos h1]
    obtain ⟨s', e1, e2, e3⟩ := expand_run c (s := s) (n := a.length + 1) hs (by omega)
    exact ⟨s', l, e1, e2, e3, .inr rfl, fun _ => rfl⟩
  · rw [if_neg h1]
    by_cases h2 : 0 < t.core.cntEnd
    · rw [if_pos h2, M.bind_ok (change_eq h)]
      have hc : (Sel.count t.core).typeidx = t.core.typeidx ∧
          ((Sel.count t.core).mask = t.core.mask ∨ (Sel.count t.core).mask = {}) := count_core t.core
      by_cases h4 : t.core.cntStart ≤ 0
      · rw [if_pos h4]
        have g1 : Grew a s (setCore s i t (Sel.count t.core)) [] :=
          setCore_grew h hst hi hc.1 hc.2 (fun e => (h1 e).elim)
        obtain ⟨s', f1, f2, f3⟩ := expand_run c (s := setCore s i t (Sel.count t.core)) (n := a.length + 1) hs (by omega)
        exact ⟨s', l, f1, g1.trans f2, f3, .inr rfl, fun h => (h1 h).elim⟩
      · rw [if_neg h4, change_eq (setCore_get h), setCore_twice]
        exact ⟨_, [], rfl, setCore_grew h hst hi hc.1 hc.2 (fun e => (h1 e).elim), rfl, .inl rfl,
          fun h => (h1 h).elim⟩
    · rw [if_neg h2]
      exact ⟨s, [], rfl, Grew.refl a s, rfl, .inl rfl, fun h => (h1 h).elim⟩

theorem follow_run (hs : s.atm = a) (h : s.tokens[i]? = some t) (hst : a[t.stateidx]? = some st)
    (hi : i < s.scope.tokenTo) (c : Chain a st.next l) (hl : l.length ≤ a.length) (key : List Byte) :
    ∃ s' X, Sel.follow i key st s = (.ok (), s') ∧ Grew a s s' X ∧ s'.iter = s.iter ∧
      (X = [] ∨ X = l ∧ accepts st.key key) ∧ (accepts st.key key → t.core.cntEnd = -1 → X = l) := by
  obtain ⟨s', X, h1, h2, h3, h4, h5⟩ := produce_run hs h hst hi c hl
  have no : ∀ P : Prop, ¬ P → ∃ s' X, (pure () : M Sel Unit) s = (.ok (), s') ∧ Grew a s s' X ∧ s'.iter = s.iter ∧
      (X = [] ∨ X = l ∧ P) ∧ (P → t.core.cntEnd = -1 → X = l) :=
    fun P hP => ⟨s, [], rfl, Grew.refl a s, rfl, .inl rfl, fun h => (hP h).elim⟩
  unfold Sel.follow
  cases hk : st.key with
  | none => exact ⟨s', X, h1, h2, h3, h4.imp_right fun e => ⟨e, trivial⟩, fun _ => h5⟩
  | some k =>
    simp only []
    by_cases e : k = key
    · rw [if_pos e]
      exact ⟨s', X, h1, h2, h3, h4.imp_right fun e' => ⟨e', e⟩, fun _ => h5⟩
    · rw [if_neg e]
      exact no _ e

theorem emit_run (tok : TokOk a s) (h : s.tokens[i]? = some t) (hst : a[t.stateidx]? = some st)
    (hi : i < s.scope.tokenTo) :
    ∃ s' r, Sel.emit i s = (.ok r, s') ∧ Grew a s s' [] ∧ s'.iter = s.iter ∧ (r ≠ 0 → r = st.core.typeidx) ∧
      (t.core.cntEnd = -1 → r = st.core.typeidx) := by
  have hty : t.core.typeidx = st.core.typeidx := by
    obtain ⟨st', e1, e2, -⟩ := tok t (List.mem_of_getElem? h)
    rw [hst] at e1
    cases e1
    exact e2
  unfold Sel.emit
  rw [M.bind_ok (tokenAt_eq h)]
  by_cases h0 : t.core.typeidx = 0
  · rw [if_neg (by simpa using h0)]
    exact ⟨s, 0, rfl, Grew.refl a s, rfl, fun h => (h rfl).elim, fun _ => h0.symm.trans hty⟩
  · rw [if_pos h0]
    by_cases h1 : t.core.cntEnd = -1
    · rw [if_pos h1]
      exact ⟨s, _, rfl, Grew.refl a s, rfl, fun _ => hty, fun _ => hty⟩
    · rw [if_neg h1]
      by_cases h2 : 0 < t.core.cntEnd
      · rw [if_pos h2, M.bind_ok (change_eq h)]
        have hc := count_core t.core
        by_cases h4 : t.core.cntStart ≤ 0
        · rw [if_pos h4]
          exact ⟨_, _, rfl, setCore_grew h hst hi hc.1 hc.2 (fun e => (h1 e).elim), rfl, fun _ => hty, fun h => (h1 h).elim⟩
        · rw [if_neg h4, M.bind_ok (change_eq (setCore_get h)), setCore_twice]
          exact ⟨_, _, rfl, setCore_grew h hst hi hc.1 hc.2 (fun e => (h1 e).elim), rfl, fun h => (h rfl).elim,
            fun h => (h1 h).elim⟩
      · rw [if_neg h2]
        exact ⟨s, 0, rfl, Grew.refl a s, rfl, fun h => (h rfl).elim, fun h => (h1 h).elim⟩

theorem giveUp_run (h : s.tokens[i]? = some t) (hst : a[t.stateidx]? = some st) (hi : i < s.scope.tokenTo)
    (tok : TokOk a s) : ∃ s' t', Sel.giveUp i s.type s = (.ok (), s') ∧ Grew a s s' [] ∧ s'.iter = s.iter ∧
      s'.tokens[i]? = some t' ∧ (st.core.cntEnd = -1 → st.core.mask.rejects s.type = true → t'.core.mask = {}) := by
  obtain ⟨st', e1, e2, e3, e4, e5⟩ := tok t (List.mem_of_getElem? h)
  rw [hst] at e1
  cases e1
  unfold Sel.giveUp
  rw [M.bind_ok (tokenAt_eq h)]
  by_cases h1 : t.core.mask.rejects s.type = true
  · rw [if_pos h1, change_eq h]
    exact ⟨_, _, rfl, setCore_grew h hst hi rfl (.inr rfl) (fun _ => ⟨rfl, h1⟩), rfl, setCore_get h, fun _ _ => rfl⟩
  · rw [if_neg h1]
    refine ⟨s, t, rfl, Grew.refl a s, rfl, h, fun _ h2 => ?_⟩
    rcases e3 with e3 | e3
    · rw [e3] at h1; exact (h1 h2).elim
    · exact e3

/-- A token is visited. `X` are the states activated. -/
theorem match_run (hs : s.atm = a) (tok : TokOk a s) (h : s.tokens[i]? = some t)
    (hst : a[t.stateidx]? = some st) (c : Chain a st.next l) (hl : l.length ≤ a.length) {key : List Byte}
    (hk : s.key = some key) (hi : i < s.scope.tokenTo) :
    ∃ s' r X t', Sel.matchToken i s = (.ok r, s') ∧ Grew a s s' X ∧ s'.iter = s.iter ∧ s'.tokens[i]? = some t' ∧
      (X = [] ∨ X = l ∧ t.core.mask.matches s.type = true ∧ accepts st.key key) ∧
      (t.core.cntEnd = -1 → t.core.mask.matches s.type = true → accepts st.key key → X = l) ∧
      (r ≠ 0 → r = st.core.typeidx ∧ t.core.mask.matches s.type = true) ∧
      (st.next = none → st.core.cntEnd = -1 → t.core.mask.matches s.type = true → r = st.core.typeidx) ∧
      (st.core.cntEnd = -1 → st.core.mask.rejects s.type = true → t'.core.mask = {}) := by
  have main : ∃ s' r X, Sel.fire i s.type key s = (.ok r, s') ∧ Grew a s s' X ∧ s'.iter = s.iter ∧
      (X = [] ∨ X = l ∧ t.core.mask.matches s.type = true ∧ accepts st.key key) ∧
      (t.core.cntEnd = -1 → t.core.mask.matches s.type = true → accepts st.key key → X = l) ∧
      (r ≠ 0 → r = st.core.typeidx ∧ t.core.mask.matches s.type = true) ∧
      (st.next = none → st.core.cntEnd = -1 → t.core.mask.matches s.type = true → r = st.core.typeidx) := by
    unfold Sel.fire
    rw [M.bind_ok (tokenAt_eq h)]
    by_cases hm : t.core.mask.matches s.type = true
    · rw [if_pos hm]
      have h1 : Sel.stateAt t.stateidx s = (.ok st, s) := by unfold Sel.stateAt; rw [hs, hst]
      rw [M.bind_ok h1]
      obtain ⟨s1, X, f1, f2, f3, f4, f5⟩ := follow_run hs h hst hi c hl key
      rw [M.bind_ok f1]
      obtain ⟨t1, g1, g2⟩ := f2.get h
      obtain ⟨s2, r, k1, k2, k3, k4, k5⟩ := emit_run (f2.tok tok) g1 (g2 ▸ hst) (by rw [f2.to]; exact hi)
      refine ⟨s2, r, X, k1, by simpa using f2.trans k2, k3.trans f3, ?_, fun he _ ha => f5 ha he, fun hr => ⟨k4 hr, hm⟩, ?_⟩
      · exact f4.imp_right fun e => ⟨e.1, hm, e.2⟩
      · intro _ he _
        apply k5
        obtain ⟨st', e1, -, -, e4, -⟩ := f2.tok tok t1 (List.mem_of_getElem? g1)
        rw [g2, hst] at e1
        cases e1
        rcases e4 he with e | e
        · rw [e]; exact he
        · rw [e]; exact he
    · rw [if_neg hm]
      exact ⟨s, 0, [], rfl, Grew.refl a s, rfl, .inl rfl, fun _ h => (hm h).elim, fun h => (h rfl).elim,
        fun _ _ h => (hm h).elim⟩
  obtain ⟨s1, r, X, f1, f2, f3, f4, f5, f6, f7⟩ := main
  obtain ⟨t1, g1, g2⟩ := f2.get h
  obtain ⟨s2, t2, k1, k2, k3, k4, k5⟩ := giveUp_run g1 (g2 ▸ hst) (by rw [f2.to]; exact hi) (f2.tok tok)
  rw [f2.type] at k1 k5
  refine ⟨s2, r, X, t2, ?_, by simpa using f2.trans k2, k3.trans f3, k4, f4, f5, f6, f7, k5⟩
  unfold Sel.matchToken
  rw [M.bind_ok (M.get_run _), hk]
  simp only []
  rw [if_neg (by omega), M.bind_ok f1, M.bind_ok k1]
  rfl

end

end TW.Path
