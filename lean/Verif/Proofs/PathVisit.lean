import Verif.Proofs.PathSelect

/-!
# All results of an item
-/

namespace TW.Path

namespace Sel

/-- Visit tokens one after the other. -/
def visitAll : List Nat → M Sel (List Int)
  | [] => pure []
  | i :: vs => do
    let r ← matchToken i
    M.modify fun s => { s with iter := s.iter + 1 }
    let rs ← visitAll vs
    pure (r :: rs)

/-- The tokens still to visit. -/
def pending (s : Sel) : List Nat :=
  List.range' s.iter (s.scope.tokenTo - s.iter) ++
    ((s.follows.take s.scope.followidx).drop (s.iter - s.scope.tokenTo)).takeWhile (· < s.scope.tokenFrom)

end Sel

/-- The states activated by visiting tokens, and the results. -/
inductive Visits (a : Atm) (type : ElementType) (key : List Byte) (toks : List Token) : List Nat → List Nat → List Int → Prop
  | nil : Visits a type key toks [] [] []
  | cons {i t st l X vs Y r rs} : toks[i]? = some t → a[t.stateidx]? = some st → Chain a st.next l →
      (X = [] ∨ X = l ∧ st.core.mask.matches type = true ∧ accepts st.key key) →
      (r ≠ 0 → r = st.core.typeidx ∧ st.core.mask.matches type = true) →
      (st.core.cntEnd = -1 → st.core.mask.rejects type = false →
        X = (if t.core.mask.matches type = true ∧ accepts st.key key then l else []) ∧
        (st.next = none → r = if t.core.mask.matches type = true then st.core.typeidx else 0)) →
      Visits a type key toks vs Y rs → Visits a type key toks (i :: vs) (X ++ Y) (r :: rs)

/-- The selector can process an item. -/
structure Ready (a : Atm) (lab : List (List Edge)) (key : List Byte) (s : Sel) : Prop where
  ok : Ok a lab
  atm : s.atm = a
  tok : TokOk a s
  key : s.key = some key
  to : s.scope.tokenTo ≤ s.tokens.length
  from' : s.scope.tokenFrom ≤ s.scope.tokenTo
  fidx : s.scope.followidx ≤ s.follows.length
  trg : ∀ x ∈ s.triggers, x ≠ 0

variable {a : Atm} {lab : List (List Edge)} {key : List Byte} {s s' : Sel}

theorem trig_typ {i : Nat} (h : trig a i = true) : typ a i ≠ 0 := by
  unfold trig at h
  unfold typ
  cases hi : a[i]? with
  | none => rw [hi] at h; cases h
  | some st => rw [hi] at h; simp at h; exact h.2

theorem Ready.grew (h : Ready a lab key s) {X : List Nat} (g : Grew a s s' X) : Ready a lab key s' := by
  refine ⟨h.ok, g.atm.trans h.atm, g.tok h.tok, g.key.trans h.key, ?_, ?_, ?_, ?_⟩
  · rw [g.to, g.len]; have := h.to; omega
  · rw [g.from', g.to]; exact h.from'
  · rw [g.fidx, g.follows, List.length_append]; have := h.fidx; omega
  · intro x hx
    rw [g.triggers] at hx
    rcases List.mem_append.1 hx with hx | hx
    · rw [List.mem_reverse, List.mem_map] at hx
      obtain ⟨i, h1, rfl⟩ := hx
      exact trig_typ (List.mem_filter.1 h1).2
    · exact h.trg x hx

/-- The iterator does not matter. -/
theorem Grew.iter {X : List Nat} (g : Grew a s s' X) (k : Nat) : Grew a s { s' with iter := k } X :=
  ⟨g.atm, g.stk, g.type, g.key, g.from', g.to, g.fidx, g.mask, g.idx, g.follows, g.triggers, g.tok,
    g.fmask, g.cover, g.life, g.keep, g.fresh, g.only⟩

/-- One token is visited. -/
theorem Ready.visit (h : Ready a lab key s) {i : Nat} (hi : i < s.scope.tokenTo) :
    ∃ s1 r X t st l t', Sel.matchToken i s = (.ok r, s1) ∧ Grew a s s1 X ∧ s1.iter = s.iter ∧
      s.tokens[i]? = some t ∧ a[t.stateidx]? = some st ∧ Chain a st.next l ∧ s1.tokens[i]? = some t' ∧
      (X = [] ∨ X = l ∧ t.core.mask.matches s.type = true ∧ accepts st.key key) ∧
      (t.core.cntEnd = -1 → t.core.mask.matches s.type = true → accepts st.key key → X = l) ∧
      (r ≠ 0 → r = st.core.typeidx ∧ t.core.mask.matches s.type = true) ∧
      (st.next = none → st.core.cntEnd = -1 → t.core.mask.matches s.type = true → r = st.core.typeidx) ∧
      (st.core.cntEnd = -1 → st.core.mask.rejects s.type = true → t'.core.mask = {}) := by
  have hlen := h.to
  obtain ⟨t, ht⟩ : ∃ t, s.tokens[i]? = some t := ⟨_, List.getElem?_eq_getElem (by omega)⟩
  obtain ⟨st, hst, -⟩ := h.tok t (List.mem_of_getElem? ht)
  obtain ⟨l, c, -, hl⟩ := h.ok.chain_next hst
  obtain ⟨s1, r, X, t', h1, h2, h3, h4, h5⟩ := match_run h.atm h.tok ht hst c hl h.key hi
  exact ⟨s1, r, X, t, st, l, t', h1, h2, h3, ht, hst, c, h4, h5⟩

/-- The mask of a token matches only what the one of its state matches. -/
theorem TokOk.mask (tok : TokOk a s) {i : Nat} {t : Token} {st : State} (h : s.tokens[i]? = some t)
    (hst : a[t.stateidx]? = some st) {type : ElementType} (hm : t.core.mask.matches type = true) :
    st.core.mask.matches type = true := by
  obtain ⟨st', e1, -, e3, -⟩ := tok t (List.mem_of_getElem? h)
  rw [hst] at e1
  cases e1
  rcases e3 with e3 | e3
  · rw [← e3]; exact hm
  · rw [e3] at hm
    unfold Mask.matches at hm
    simp at hm

theorem TokOk.cntEnd (tok : TokOk a s) {i : Nat} {t : Token} {st : State} (h : s.tokens[i]? = some t)
    (hst : a[t.stateidx]? = some st) (he : st.core.cntEnd = -1) :
    t.core.cntEnd = -1 ∧ (t.core = st.core ∨ t.core = st.core.dead) := by
  obtain ⟨st', e1, -, -, e4, -⟩ := tok t (List.mem_of_getElem? h)
  rw [hst] at e1
  cases e1
  refine ⟨?_, e4 he⟩
  rcases e4 he with e | e
  · rw [e]; exact he
  · rw [e]; exact he

theorem TokOk.rejects (tok : TokOk a s) {i : Nat} {t : Token} {st : State} (h : s.tokens[i]? = some t)
    (hst : a[t.stateidx]? = some st) {type : ElementType} (hr : st.core.mask.rejects type = false) :
    t.core.mask.rejects type = false := by
  obtain ⟨st', e1, -, e3, -⟩ := tok t (List.mem_of_getElem? h)
  rw [hst] at e1
  cases e1
  rcases e3 with e3 | e3
  · rw [e3]; exact hr
  · rw [e3]
    unfold Mask.rejects
    simp

/-- Visiting tokens that have been changed meanwhile. -/
theorem Visits.of {type : ElementType} {toks toks' : List Token} {vs X : List Nat} {rs : List Int}
    (v : Visits a type key toks' vs X rs)
    (h : ∀ k ∈ vs, ∀ (t' : Token), toks'[k]? = some t' → ∃ t, toks[k]? = some t ∧ t'.stateidx = t.stateidx ∧
      ∀ st, a[t.stateidx]? = some st → st.core.cntEnd = -1 → st.core.mask.rejects type = false → t'.core = t.core) :
    Visits a type key toks vs X rs := by
  induction v with
  | nil => exact .nil
  | @cons i t' st l X vs Y r rs k1 k2 k3 k4 k5 k6 _ ih =>
    obtain ⟨t, e1, e2, e3⟩ := h i (List.mem_cons_self ..) t' k1
    rw [e2] at k2
    refine .cons e1 k2 k3 k4 k5 (fun he hr => ?_) (ih fun k hk => h k (List.mem_cons_of_mem _ hk))
    rw [← e3 st k2 he hr]
    exact k6 he hr

theorem Ready.visits (vs : List Nat) : ∀ {s : Sel}, Ready a lab key s → (∀ i ∈ vs, i < s.scope.tokenTo) →
    ∃ rs s' X, Sel.visitAll vs s = (.ok rs, s') ∧ Grew a s s' X ∧ s'.iter = s.iter + vs.length ∧
      Visits a s.type key s.tokens vs X rs ∧
      ∀ i ∈ vs, ∀ (t : Token) (st : State), s'.tokens[i]? = some t → a[t.stateidx]? = some st →
        st.core.cntEnd = -1 → st.core.mask.rejects s.type = true → t.core.mask = {} := by
  induction vs with
  | nil => intro s h _; exact ⟨[], s, [], rfl, Grew.refl a s, rfl, .nil, fun i hi => nomatch hi⟩
  | cons i vs ih =>
    intro s h hv
    obtain ⟨s1, r, X, t, st, l, t1, h1, h2, h3, h4, h5, h6, h7, h8, h9, h10, h11, h12⟩ := h.visit (hv i (List.mem_cons_self ..))
    have g := h2.iter (s1.iter + 1)
    obtain ⟨rs, s', Y, e1, e2, e3, e4, e5⟩ := ih (s := { s1 with iter := s1.iter + 1 }) (h.grew g)
      (fun k hk => by rw [g.to]; exact hv k (List.mem_cons_of_mem _ hk))
    refine ⟨r :: rs, s', X ++ Y, ?_, g.trans e2, ?_, ?_, ?_⟩
    · unfold Sel.visitAll
      rw [M.bind_ok h1, M.bind_ok (M.modify_run _ _), M.bind_ok e1]
      rfl
    · rw [e3]
      simp only [List.length_cons, h3]
      omega
    · refine .cons h4 h5 h6 (h8.imp_right fun e => ⟨e.1, h.tok.mask h4 h5 e.2.1, e.2.2⟩)
        (fun hr => ⟨(h10 hr).1, h.tok.mask h4 h5 (h10 hr).2⟩) ?_ ?_
      · intro he _
        constructor
        · split
          · rename_i hc
            exact h9 (h.tok.cntEnd h4 h5 he).1 hc.1 hc.2
          · rename_i hc
            rcases h8 with h8 | h8
            · exact h8
            · exact (hc h8.2).elim
        · intro hn
          split
          · rename_i hc
            exact h11 hn he hc
          · rename_i hc
            apply Classical.byContradiction
            intro hr
            exact hc (h10 hr).2
      · replace e4 : Visits a s1.type key s1.tokens vs Y rs := e4
        rw [h2.type] at e4
        refine e4.of ?_
        intro k hk t' ht'
        have hkl : k < s.tokens.length := by
          have := hv k (List.mem_cons_of_mem _ hk)
          have := h.to
          omega
        obtain ⟨t0, ht0⟩ : ∃ t, s.tokens[k]? = some t := ⟨_, List.getElem?_eq_getElem hkl⟩
        obtain ⟨t2, f1, f2⟩ := h2.get ht0
        rw [ht'] at f1
        cases f1
        refine ⟨t0, ht0, f2, fun st hst he hr => ?_⟩
        obtain ⟨t3, f3, f4, f5⟩ := h2.life h.tok k t0 st ht0 hst he
        rw [ht'] at f3
        cases f3
        rcases f5 with f5 | ⟨-, f5⟩
        · exact f5
        · rw [h.tok.rejects ht0 hst hr] at f5
          cases f5
    · intro k hk t2 st2 k1 k2 k3 k4
      rcases List.mem_cons.1 hk with rfl | hk
      · by_cases hv' : k ∈ vs
        · exact e5 k hv' t2 st2 k1 k2 k3 (by rw [show ({ s1 with iter := s1.iter + 1 } : Sel).type = s.type from g.type]; exact k4)
        · obtain ⟨t3, f1, f2⟩ := h2.get h4
          rw [h7] at f1
          cases f1
          obtain ⟨t4, f3, f4, f5⟩ := e2.life (h.grew g).tok k t1 st h7 (by rw [f2]; exact h5) (by
            obtain ⟨t5, f6, f7⟩ := e2.get (s := { s1 with iter := s1.iter + 1 }) h7
            rw [k1] at f6
            cases f6
            rw [f7, f2, h5] at k2
            cases k2
            exact k3)
          rw [k1] at f3
          cases f3
          rw [f4, f2, h5] at k2
          cases k2
          have := h12 k3 k4
          rcases f5 with f5 | ⟨f5, -⟩
          · rw [f5]; exact this
          · rw [f5]; rfl
      · exact e5 k hk t2 st2 k1 k2 k3 (by rw [show ({ s1 with iter := s1.iter + 1 } : Sel).type = s.type from g.type]; exact k4)

theorem pending_lt (h : s.scope.tokenFrom ≤ s.scope.tokenTo) : ∀ i ∈ s.pending, i < s.scope.tokenTo := by
  intro i hi
  unfold Sel.pending at hi
  rcases List.mem_append.1 hi with hi | hi
  · rw [List.mem_range'_1] at hi
    omega
  · have := List.all_takeWhile (l := (s.follows.take s.scope.followidx).drop (s.iter - s.scope.tokenTo))
      (p := (· < s.scope.tokenFrom))
    rw [List.all_eq_true] at this
    have := this i hi
    simp at this
    omega

/-- The next token to visit. -/
theorem pending_cons {i : Nat} {vs : List Nat} (hf : s.scope.followidx ≤ s.follows.length) (hp : s.pending = i :: vs)
    {X : List Nat} (g : Grew a s s' X) (hit : s'.iter = s.iter + 1) : s'.pending = vs ∧
    (s.iter < s.scope.tokenTo ∧ i = s.iter ∨
     ¬ s.iter < s.scope.tokenTo ∧ s.iter - s.scope.tokenTo < s.scope.followidx ∧
      s.follows[s.iter - s.scope.tokenTo]? = some i ∧ i < s.scope.tokenFrom) := by
  have htake : s'.follows.take s'.scope.followidx = s.follows.take s.scope.followidx := by
    rw [g.fidx, g.follows, List.take_append_of_le_length hf]
  unfold Sel.pending at hp ⊢
  rw [htake, hit, g.to, g.from']
  by_cases h1 : s.iter < s.scope.tokenTo
  · obtain ⟨k, hk⟩ : ∃ k, s.scope.tokenTo - s.iter = k + 1 := ⟨s.scope.tokenTo - s.iter - 1, by omega⟩
    have h2 : s.scope.tokenTo - (s.iter + 1) = k := by omega
    have h3 : s.iter - s.scope.tokenTo = 0 := by omega
    have h4 : s.iter + 1 - s.scope.tokenTo = 0 := by omega
    rw [hk, List.range'_succ, List.cons_append, h3] at hp
    rw [h2, h4]
    exact ⟨(List.cons.inj hp).2, .inl ⟨h1, (List.cons.inj hp).1.symm⟩⟩
  · have h2 : s.scope.tokenTo - s.iter = 0 := by omega
    have h3 : s.scope.tokenTo - (s.iter + 1) = 0 := by omega
    rw [h2] at hp
    rw [h3]
    simp only [List.range'_zero, List.nil_append] at hp ⊢
    generalize hF : s.follows.take s.scope.followidx = F at hp
    have h4 : s.iter + 1 - s.scope.tokenTo = (s.iter - s.scope.tokenTo) + 1 := by omega
    rw [h4]
    generalize hk : s.iter - s.scope.tokenTo = k at hp ⊢
    cases hd : F.drop k with
    | nil => rw [hd] at hp; cases hp
    | cons x l =>
      rw [hd] at hp
      have hl : F.drop (k + 1) = l := by
        rw [← List.tail_drop, hd]; rfl
      rw [hl]
      rw [List.takeWhile_cons] at hp
      split at hp
      · rename_i hx
        have hx' : F[k]? = some x := by
          have := List.getElem?_drop (xs := F) (i := k) (j := 0)
          rw [hd] at this
          simpa using this.symm
        rw [← hF, List.getElem?_take] at hx'
        split at hx'
        · rename_i hlt
          rw [(List.cons.inj hp).1] at hx' hx
          exact ⟨(List.cons.inj hp).2, .inr ⟨h1, hlt, hx', by simpa using hx⟩⟩
        · cases hx'
      · cases hp

/-- There is no token to visit anymore. -/
theorem pending_nil (hf : s.scope.followidx ≤ s.follows.length) (hp : s.pending = []) :
    ¬ s.iter < s.scope.tokenTo ∧ (s.iter - s.scope.tokenTo < s.scope.followidx →
      ∃ t, s.follows[s.iter - s.scope.tokenTo]? = some t ∧ ¬ t < s.scope.tokenFrom) := by
  unfold Sel.pending at hp
  obtain ⟨h1, h2⟩ := List.append_eq_nil_iff.1 hp
  have h3 : ¬ s.iter < s.scope.tokenTo := by
    intro h
    obtain ⟨k, hk⟩ : ∃ k, s.scope.tokenTo - s.iter = k + 1 := ⟨s.scope.tokenTo - s.iter - 1, by omega⟩
    rw [hk] at h1
    simp at h1
  refine ⟨h3, fun hlt => ?_⟩
  generalize hk : s.iter - s.scope.tokenTo = k at h2 hlt
  obtain ⟨t, ht⟩ : ∃ t, s.follows[k]? = some t := ⟨_, List.getElem?_eq_getElem (by omega)⟩
  refine ⟨t, ht, fun hx => ?_⟩
  have hkt : k < (s.follows.take s.scope.followidx).length := by simp; omega
  rw [List.drop_eq_getElem_cons hkt, List.takeWhile_cons] at h2
  have : (s.follows.take s.scope.followidx)[k] = t := by
    rw [List.getElem_take]
    have := List.getElem?_eq_some_iff.1 ht
    exact this.2
  rw [this] at h2
  simp [hx] at h2

/-- The states of the selector that only differ in the results already fetched. -/
def Sel.drained (s : Sel) : Sel := { s with triggers := [], key := none }

theorem loop_rest (n : Nat) (hf : s.scope.followidx ≤ s.follows.length) (hp : s.pending = []) :
    Sel.fetchLoop (n + 1) s = (match s.triggers with
        | t :: ts => do
          M.modify fun s => { s with triggers := ts }
          if t = 0 then Sel.fetchLoop n else pure t
        | [] => do
          M.modify fun s => { s with key := none }
          pure 0 : M Sel Int) s := by
  obtain ⟨h1, h2⟩ := pending_nil hf hp
  conv => lhs; unfold Sel.fetchLoop
  rw [M.bind_ok (M.get_run _), if_neg h1]
  simp only []
  by_cases h3 : s.iter - s.scope.tokenTo < s.scope.followidx
  · rw [if_pos h3]
    obtain ⟨t, e1, e2⟩ := h2 h3
    rw [e1]
    simp only []
    rw [if_neg e2]
    cases s.triggers <;> rfl
  · rw [if_neg h3]
    cases s.triggers <;> rfl

theorem loop_nil (n : Nat) (hf : s.scope.followidx ≤ s.follows.length) (hp : s.pending = []) (ht : s.triggers = []) :
    Sel.fetchLoop (n + 1) s = (.ok 0, { s with key := none }) := by
  rw [loop_rest n hf hp]
  simp only [ht]
  rw [M.bind_ok (M.modify_run _ _)]
  simp [ht]

theorem loop_trig (n : Nat) (hf : s.scope.followidx ≤ s.follows.length) (hp : s.pending = []) {t : Int} {ts : List Int}
    (ht : s.triggers = t :: ts) (h0 : t ≠ 0) :
    Sel.fetchLoop (n + 1) s = (.ok t, { s with triggers := ts }) := by
  rw [loop_rest n hf hp]
  simp only [ht]
  rw [M.bind_ok (M.modify_run _ _), if_neg h0]
  rfl

theorem loop_cons (n : Nat) {i : Nat} {vs : List Nat} (h : Ready a lab key s) (hp : s.pending = i :: vs)
    {r : Int} {s1 : Sel} {X : List Nat} (hm : Sel.matchToken i s = (.ok r, s1)) (g : Grew a s s1 X)
    (hit : s1.iter = s.iter) : Sel.fetchLoop (n + 1) s =
      if r = 0 then Sel.fetchLoop n { s1 with iter := s1.iter + 1 } else (.ok r, { s1 with iter := s1.iter + 1 }) := by
  have h2 := (pending_cons h.fidx hp (g.iter (s1.iter + 1)) (by rw [hit])).2
  conv => lhs; unfold Sel.fetchLoop
  rw [M.bind_ok (M.get_run _)]
  rcases h2 with ⟨h3, rfl⟩ | ⟨h3, h4, h5, h6⟩
  · rw [if_pos h3, M.bind_ok hm, M.bind_ok (M.modify_run _ _)]
    split <;> rfl
  · rw [if_neg h3]
    simp only []
    rw [if_pos h4, h5]
    simp only []
    rw [if_pos h6, M.bind_ok hm, M.bind_ok (M.modify_run _ _)]
    split <;> rfl

theorem fetch_loop (n : Nat) (h : s.scope.mask.matches s.type = true) : Sel.fetch n s = Sel.fetchLoop n s := by
  unfold Sel.fetch
  rw [M.bind_ok (M.get_run _), if_pos h]

/-- Fetching the results one after the other visits all tokens and takes all triggers. -/
theorem drain (n2 : Nat) (vs : List Nat) : ∀ {s : Sel} {rs : List Int} {s2 : Sel}, Ready a lab key s →
    s.scope.mask.matches s.type = true → s.pending = vs → Sel.visitAll vs s = (.ok rs, s2) →
    ∀ n m, vs.length + s2.triggers.length + 1 ≤ n → vs.length + s2.triggers.length + 1 ≤ n2 →
      vs.length + s2.triggers.length + 1 ≤ m →
      (Sel.fetchLoop n >>= Sel.walk n2 false m) s = (.ok (rs.filter (· ≠ 0) ++ s2.triggers), s2.drained) := by
  induction vs with
  | nil =>
    intro s rs s2 h hm hp hv n m hn hn2 hm'
    cases hv
    generalize hts : s.triggers = ts at *
    induction ts generalizing s n m with
    | nil =>
      obtain ⟨n', rfl⟩ : ∃ n', n = n' + 1 := ⟨n - 1, by omega⟩
      obtain ⟨m', rfl⟩ : ∃ m', m = m' + 1 := ⟨m - 1, by omega⟩
      have h1 : Sel.fetchLoop (n' + 1) s = (.ok 0, { s with key := none }) :=
        loop_nil n' h.fidx hp hts
      rw [M.bind_ok h1]
      unfold Sel.walk
      rw [if_pos rfl]
      simp [Sel.drained, hts]
    | cons t ts ih =>
      obtain ⟨n', rfl⟩ : ∃ n', n = n' + 1 := ⟨n - 1, by omega⟩
      obtain ⟨m', rfl⟩ : ∃ m', m = m' + 1 := ⟨m - 1, by omega⟩
      have ht : t ≠ 0 := h.trg t (by rw [hts]; exact List.mem_cons_self ..)
      have h1 : Sel.fetchLoop (n' + 1) s = (.ok t, { s with triggers := ts }) :=
        loop_trig n' h.fidx hp hts ht
      rw [M.bind_ok h1]
      simp only [List.length_nil, List.length_cons, Nat.zero_add] at hn hn2 hm'
      have ih' := ih (s := { s with triggers := ts })
        ⟨h.ok, h.atm, h.tok, h.key, h.to, h.from', h.fidx, fun x hx => h.trg x (by rw [hts]; exact List.mem_cons_of_mem _ hx)⟩
        hm hp n2 m' rfl (by simp; omega) (by simp; omega) (by simp; omega)
      unfold Sel.walk
      rw [if_neg ht]
      rw [M.bind_run] at ih'
      have h2 : Sel.fetch n2 { s with triggers := ts } = Sel.fetchLoop n2 { s with triggers := ts } := fetch_loop n2 hm
      cases h3 : Sel.fetchLoop n2 { s with triggers := ts } with
      | mk r s3 =>
        rw [h3] at ih' h2
        cases r with
        | stop er => cases ih'
        | ok e =>
          simp only [] at ih'
          rw [M.bind_ok h2]
          simp only [Bool.false_eq_true, if_false]
          rw [M.bind_ok ih']
          simp [Sel.drained]
  | cons i vs ih =>
    intro s rs s2 h hm hp hv n m hn hn2 hm'
    obtain ⟨n', rfl⟩ : ∃ n', n = n' + 1 := ⟨n - 1, by omega⟩
    obtain ⟨m', rfl⟩ : ∃ m', m = m' + 1 := ⟨m - 1, by omega⟩
    simp only [List.length_cons] at hn hn2 hm'
    have hi : i < s.scope.tokenTo := pending_lt h.from' i (by rw [hp]; exact List.mem_cons_self ..)
    obtain ⟨s1, r, X, t, st, l, t1, h1, h2, h3, -⟩ := h.visit hi
    have g := h2.iter (s1.iter + 1)
    unfold Sel.visitAll at hv
    rw [M.bind_ok h1, M.bind_ok (M.modify_run _ _)] at hv
    have hp1 := (pending_cons h.fidx hp g (by rw [h3])).1
    have hr1 := h.grew g
    have hm1 : ({ s1 with iter := s1.iter + 1 } : Sel).scope.mask.matches ({ s1 with iter := s1.iter + 1 } : Sel).type = true := by
      show s1.scope.mask.matches s1.type = true
      rw [h2.type]
      exact h2.mask _ hm
    have hl := loop_cons n' h hp h1 h2 h3
    generalize ({ s1 with iter := s1.iter + 1 } : Sel) = s1' at *
    cases h4 : Sel.visitAll vs s1' with
    | mk q s3 =>
      cases q with
      | stop er => rw [M.bind_stop h4] at hv; cases hv
      | ok rs' =>
        rw [M.bind_ok h4] at hv
        cases hv
        have ih' := ih hr1 hm1 hp1 h4
        rw [M.bind_run, hl]
        by_cases hr : r = 0
        · rw [if_pos hr]
          have := ih' n' (m' + 1) (by omega) (by omega) (by omega)
          rw [M.bind_run] at this
          rw [this, hr]
          simp
        · rw [if_neg hr]
          have := ih' n2 m' (by omega) (by omega) (by omega)
          rw [M.bind_run] at this
          unfold Sel.walk
          simp only []
          rw [if_neg hr]
          have h5 : Sel.fetch n2 s1' = Sel.fetchLoop n2 s1' := fetch_loop n2 hm1
          cases h6 : Sel.fetchLoop n2 s1' with
          | mk q s4 =>
            rw [h6] at this h5
            cases q with
            | stop er => cases this
            | ok e =>
              simp only [] at this
              rw [M.bind_ok h5]
              simp only [Bool.false_eq_true, if_false]
              rw [M.bind_ok this]
              simp [hr]

end TW.Path
