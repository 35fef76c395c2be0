import Verif.Proofs.PathUsed

/-!
# The tokens an open tag adds
-/

namespace TW.Path

/-- The types a state leads to for the items of a type. -/
theorem emittedFrom_mem {a : Atm} (type : ElementType) : ∀ (n : Nat) (o : Option Nat) (l : List Int), Atm.emittedFrom type n o a = (.ok l, a) →
    ∀ ty, ty ∈ l ↔ ty ≠ 0 ∧ ∃ k st, Linked a o k ∧ a[k]? = some st ∧ st.core.mask.matches type = true ∧ st.core.typeidx = ty
  | n, none, l, h, ty => by
    have e : l = [] := by
      cases n <;> (cases h; rfl)
    subst e
    exact ⟨(fun h => nomatch h), fun ⟨_, k, st, hl, _⟩ => nomatch hl⟩
  | 0, some i, l, h, ty => nomatch h
  | n + 1, some i, l, h, ty => by
    unfold Atm.emittedFrom at h
    cases hi : a[i]? with
    | none =>
      rw [M.bind_stop (show Atm.stateAt i a = (.stop .ub, a) by unfold Atm.stateAt; rw [hi])] at h
      cases h
    | some st =>
      rw [M.bind_ok (stateAt_ok hi)] at h
      have keep : ∀ n o, (Atm.emittedFrom type n o a).2 = a := by
        intro n
        induction n with
        | zero =>
          intro o
          cases o <;> rfl
        | succ n ih =>
          intro o
          cases o with
          | none => rfl
          | some i =>
            unfold Atm.emittedFrom
            cases hi : a[i]? with
            | none => rw [M.bind_stop (show Atm.stateAt i a = (.stop .ub, a) by unfold Atm.stateAt; rw [hi])]
            | some st =>
              rw [M.bind_ok (stateAt_ok hi)]
              have := ih st.link
              rcases hy : Atm.emittedFrom type n st.link a with ⟨r, b⟩
              rw [hy] at this
              cases this
              cases r with
              | stop er => rw [M.bind_stop hy]
              | ok v =>
                rw [M.bind_ok hy]
                rfl
      have hk := keep n st.link
      rcases hy : Atm.emittedFrom type n st.link a with ⟨r, b⟩
      rw [hy] at hk
      cases hk
      cases r with
      | stop er =>
        rw [M.bind_stop hy] at h
        cases h
      | ok v =>
        rw [M.bind_ok hy] at h
        have ih := emittedFrom_mem type n st.link v hy ty
        cases h
        by_cases c : st.core.typeidx ≠ 0 ∧ st.core.mask.matches type = true
        · rw [if_pos c, List.mem_cons, ih]
          constructor
          · rintro (rfl | ⟨h0, k, st', h1, h2⟩)
            · exact ⟨c.1, i, st, .here i, hi, c.2, rfl⟩
            · exact ⟨h0, k, st', .next hi h1, h2⟩
          · rintro ⟨h0, k, st', h1, h2, h3, h4⟩
            cases h1 with
            | here =>
              rw [hi] at h2
              cases h2
              exact .inl h4.symm
            | next g t =>
              rw [hi] at g
              cases g
              exact .inr ⟨h0, k, st', t, h2, h3, h4⟩
        · rw [if_neg c, ih]
          constructor
          · rintro ⟨h0, k, st', h1, h2⟩
            exact ⟨h0, k, st', .next hi h1, h2⟩
          · rintro ⟨h0, k, st', h1, h2, h3, h4⟩
            cases h1 with
            | here =>
              rw [hi] at h2
              cases h2
              exact absurd ⟨by rw [h4]; exact h0, h3⟩ c
            | next g t =>
              rw [hi] at g
              cases g
              exact ⟨h0, k, st', t, h2, h3, h4⟩

theorem emitted_mem {a : Atm} {i : Nat} {st : State} (hi : a[i]? = some st) {type : ElementType} {l : List Int} (h : Atm.emitted i type a = (.ok l, a)) (ty : Int) :
    ty ∈ l ↔ ty ≠ 0 ∧ ∃ k st', Linked a st.next k ∧ a[k]? = some st' ∧ st'.core.mask.matches type = true ∧ st'.core.typeidx = ty := by
  unfold Atm.emitted at h
  rw [M.bind_ok (M.get_run _), M.bind_ok (stateAt_ok hi)] at h
  exact emittedFrom_mem type _ _ l h ty

/-- A state a token at some position leads to. -/
def Led (a : Atm) (t : Sel) (key : List Byte) (st' : State) : Prop :=
  ∃ i y st, t.Listed i ∧ t.tokens[i]? = some y ∧ y.core.mask.matches .OpenTag = true ∧ a[y.stateidx]? = some st ∧ (∀ k, st.key = some k → k = key) ∧
    ∃ k, Linked a st.next k ∧ a[k]? = some st'

/-- All tokens added come from states that match. -/
structure Fresh (a : Atm) (t : Sel) (key : List Byte) (s : Sel) : Prop where
  behind : Behind a t .OpenTag key (fun _ => True) s
  new : ∀ (j : Nat) y, t.tokens.length ≤ j → s.tokens[j]? = some y → ∃ st, Led a t key st ∧ a[y.stateidx]? = some st ∧ Fades st.core y.core

theorem fresh_walks {a : Atm} {t : Sel} {key : List Byte} (o : Opening a t) : Walks a (Fresh a t key) (fun st => Led a t key st) (fun _ => True) where
  atm s h := h.behind.atm
  act s i st h hi hp := by
    refine ⟨(behind_walks o fun _ _ _ _ _ _ _ _ _ => trivial).act s i st h.behind hi fun _ => trivial, fun j y hj hy => ?_⟩
    rcases activate_tokens st i s with e | e <;> rw [e] at hy
    · exact h.new j y hj hy
    · rcases get_append hy with hy | ⟨_, rfl⟩
      · exact h.new j y hj hy
      · exact ⟨st, hp, hi, .refl _⟩
  core s i x c hc h hx hf := by
    refine ⟨(behind_walks o fun _ _ _ _ _ _ _ _ _ => trivial).core s i x c hc h.behind hx hf, fun j y hj hy => ?_⟩
    have hy' : (s.tokens.set i { x with core := c })[j]? = some y := hy
    by_cases e : i = j
    · subst e
      rw [List.getElem?_set_self (lt_of_get hx)] at hy'
      cases hy'
      obtain ⟨st, h1, h2, h3⟩ := h.new i x hj hx
      exact ⟨st, h1, h2, h3.trans hf⟩
    · rw [List.getElem?_set_ne e] at hy'
      exact h.new j y hj hy'
  step s h := ⟨(behind_walks o fun _ _ _ _ _ _ _ _ _ => trivial).step s h.behind, h.new⟩
  done s h := ⟨(behind_walks o fun _ _ _ _ _ _ _ _ _ => trivial).done s h.behind, h.new⟩
  pop s ty ts h e := ⟨⟨((behind_walks o fun _ _ _ _ _ _ _ _ _ => trivial).pop s ty ts h.behind e).1, h.new⟩, trivial⟩
  vis s i x k st h v hx hi hm hk hst hkey j st' hl hj := by
    obtain ⟨y, k1, k2, k3, k4, _⟩ := h.behind.visits o v hx hi hm
    have e := h.behind.key k hk
    subst e
    exact ⟨i, y, st, k2, k1, k3, by rw [k4]; exact hst, hkey, j, hl, hj⟩
  out _ _ _ _ _ _ _ _ _ _ := trivial

/-- A token has been added for a state. -/
def Sel.Has (t : Sel) (k : Nat) (st : State) (s : Sel) : Prop := ∃ j, t.tokens.length ≤ j ∧ s.tokens[j]? = some { core := st.core, stateidx := k }

theorem not_empty {m : Mask} {e : ElementType} (h : m.matches e = true) : m.empty = false := by
  cases he : m.empty with
  | false => rfl
  | true =>
    unfold Mask.empty at he
    unfold Mask.matches at h
    simp at he
    simp [he] at h

theorem activate_atm (st : State) (i : Nat) (s : Sel) : (Sel.activate st i s).atm = s.atm := by
  unfold Sel.activate
  by_cases c1 : st.core.mask.empty ∧ st.core.typeidx ≠ 0
  · simp only [if_pos c1]
  · simp only [if_neg c1]
    by_cases c2 : st.core.follow = true
    · simp only [if_pos c2]
    · simp only [if_neg c2]

theorem expand_new {a : Atm} {t : Sel} : ∀ (n : Nat) (o : Option Nat) (s s' : Sel), s.atm = a → t.tokens.length ≤ s.tokens.length → Sel.expand n o s = (.ok (), s') →
    ∀ k st, Linked a o k → a[k]? = some st → st.core.mask.empty = false → Sel.Has t k st s'
  | _, none, _, _, _, _, _, k, st, hl, _, _ => nomatch hl
  | 0, some i, _, _, _, _, h, _, _, _, _, _ => nomatch h
  | n + 1, some i, s, s', ha, hlen, h, k, st, hl, hk, he => by
    unfold Sel.expand at h
    cases hi : s.atm[i]? with
    | none =>
      rw [M.bind_stop (show Sel.stateAt i s = (.stop .ub, s) by unfold Sel.stateAt; rw [hi])] at h
      cases h
    | some st0 =>
      rw [M.bind_ok (show Sel.stateAt i s = (.ok st0, s) by unfold Sel.stateAt; rw [hi]), M.bind_ok (M.modify_run _ _)] at h
      rw [ha] at hi
      have ha' : (Sel.activate st0 i s).atm = a := (activate_atm st0 i s).trans ha
      cases hl with
      | here =>
        rw [hi] at hk
        cases hk
        have hnew : (Sel.activate st i s).tokens[s.tokens.length]? = some { core := st.core, stateidx := i } := by
          unfold Sel.activate
          rw [if_neg (fun h => by rw [he] at h; cases h.1)]
          by_cases c2 : st.core.follow = true
          · simp only [if_pos c2]
            exact List.getElem?_concat_length ..
          · simp only [if_neg c2]
            exact List.getElem?_concat_length ..
        have := (other_base a s.tokens.length { core := st.core, stateidx := i }).expand n st.link (fun _ _ _ _ => trivial) _ ⟨ha', hnew⟩
        rw [h] at this
        exact ⟨_, hlen, this.1.2⟩
      | next hx l =>
        rw [hi] at hx
        cases hx
        refine expand_new n st0.link _ s' ha' ?_ h k st l hk he
        rcases activate_tokens st0 i s with e | e <;> rw [e]
        · exact hlen
        · rw [List.length_append]
          omega

/-- A token whose state has no range adds the states that follow. -/
theorem match_new {a : Atm} {t s s' : Sel} {p : Nat} {x : Token} {st : State} {key : List Byte} {r : Int} (ha : s.atm = a) (hlen : t.tokens.length ≤ s.tokens.length)
    (hx : s.tokens[p]? = some x) (hp : p < s.scope.tokenTo) (hpt : p < t.tokens.length) (hk : s.key = some key) (hm : x.core.mask.matches s.type = true) (hst : a[x.stateidx]? = some st)
    (hc : x.core.cntEnd = -1) (hkey : ∀ k, st.key = some k → k = key) {k : Nat} {st' : State} (hl : Linked a st.next k) (hk' : a[k]? = some st')
    (he : st'.core.mask.empty = false) (h : Sel.matchToken p s = (.ok r, s')) : Sel.Has t k st' s' := by
  unfold Sel.matchToken at h
  rw [M.bind_ok (M.get_run _), hk] at h
  simp only [if_neg (Nat.not_le.2 hp)] at h
  rcases hy : Sel.fire p s.type key s with ⟨r1, s1⟩
  cases r1 with
  | stop er =>
    rw [M.bind_stop hy] at h
    cases h
  | ok v =>
    rw [M.bind_ok hy] at h
    rcases hg : Sel.giveUp p s.type s1 with ⟨r2, s2⟩
    cases r2 with
    | stop er =>
      rw [M.bind_stop hg] at h
      cases h
    | ok u =>
      rw [M.bind_ok hg] at h
      cases h
      unfold Sel.fire at hy
      rw [M.bind_ok (show Sel.tokenAt p s = (.ok x, s) by unfold Sel.tokenAt; rw [hx]), if_pos hm,
        M.bind_ok (show Sel.stateAt x.stateidx s = (.ok st, s) by unfold Sel.stateAt; rw [ha, hst])] at hy
      rcases hf : Sel.follow p key st s with ⟨r3, s3⟩
      cases r3 with
      | stop er =>
        rw [M.bind_stop hf] at hy
        cases hy
      | ok w =>
        rw [M.bind_ok hf] at hy
        have hprod : Sel.produce p st s = Sel.expand (s.atm.length + 1) st.next s := by
          unfold Sel.produce
          rw [M.bind_ok (M.get_run _), M.bind_ok (show Sel.tokenAt p s = (.ok x, s) by unfold Sel.tokenAt; rw [hx]), if_pos hc]
        have hfol : Sel.follow p key st s = Sel.expand (s.atm.length + 1) st.next s := by
          unfold Sel.follow
          cases hsk : st.key with
          | none => exact hprod
          | some k =>
            simp only [if_pos (hkey k hsk)]
            exact hprod
        rw [hfol] at hf
        obtain ⟨j, j1, j2⟩ := expand_new _ _ s s3 ha hlen hf k st' hl hk' he
        have hx3 := ((other_base a p x).expand (s.atm.length + 1) st.next fun _ _ _ _ => trivial) s ⟨ha, hx⟩
        rw [hf] at hx3
        have b := other_base a j { core := st'.core, stateidx := k }
        have hne : p ≠ j := by omega
        have h4 := b.emit hne x.core.typeidx s3 ⟨⟨hx3.1.1, j2⟩, x, hx3.1.2, rfl⟩
        rw [hy] at h4
        have h5 : Holding (fun s => s.atm = a ∧ s.tokens[j]? = some { core := st'.core, stateidx := k }) (Sel.giveUp p s.type) fun _ => True := by
          unfold Sel.giveUp
          exact (tokenAt_keeps p).bind fun tk _ => .ite (b.change hne _ fun c => ⟨rfl, .inr rfl⟩) (.pure trivial)
        have h6 := h5 s1 h4.1.1
        rw [hg] at h6
        exact ⟨j, j1, h6.1.2⟩

section

variable {a : Atm} {t : Sel} {key : List Byte} {p q : Nat} {x : Token} {st st' : State} {k : Nat}

/-- A state will be activated or is. -/
def Coming (t : Sel) (p q : Nat) (x : Token) (k : Nat) (st' : State) (s : Sel) : Prop := (s.iter ≤ q ∧ s.tokens[p]? = some x) ∨ Sel.Has t k st' s

theorem visit_coming (o : Opening a t) (w : Place t p q) (hm : x.core.mask.matches .OpenTag = true) (hst : a[x.stateidx]? = some st) (hc : x.core.cntEnd = -1)
    (hkey : ∀ k, st.key = some k → k = key) (hl : Linked a st.next k) (hk : a[k]? = some st') (he : st'.core.mask.empty = false) {s s1 : Sel} {i : Nat} {v : Int}
    (g : Going a t .OpenTag key s) (l : Coming t p q x k st' s) (hi : s.iter = q → i = p) (hit : i < t.tokens.length) (h : Sel.matchToken i s = (.ok v, s1)) :
    Going a t .OpenTag key { s1 with iter := s1.iter + 1 } ∧ Coming t p q x k st' { s1 with iter := s1.iter + 1 } := by
  have k1 := (going_base (type := .OpenTag) (key := key) o s.iter).visit (R := fun _ => True) (i := i) trivial ⟨g, rfl⟩ (fun _ _ _ _ _ _ _ _ _ _ _ _ _ => trivial) (fun _ _ _ _ _ _ => trivial)
  rw [h] at k1
  obtain ⟨⟨⟨k1, k2, k3⟩, k4⟩, _⟩ := k1
  refine ⟨⟨(behind_walks (type := .OpenTag) (key := key) (R := fun _ => True) o fun _ _ _ _ _ _ _ _ _ => trivial).step s1 k1, k2, k3⟩, ?_⟩
  have hlen : t.tokens.length ≤ s.tokens.length := by
    rcases Nat.eq_zero_or_pos t.tokens.length with e | e
    · omega
    · obtain ⟨y, hy⟩ := get_of_lt (l := t.tokens) (i := t.tokens.length - 1) (by omega)
      obtain ⟨z, hz, _⟩ := g.behind.toks _ y hy
      have := lt_of_get hz
      omega
  rcases l with ⟨l1, l2⟩ | ⟨j, j1, j2⟩
  · by_cases e : i = p
    · subst e
      have hlt : i < s.scope.tokenTo := by
        rw [g.behind.to']
        exact w.lt
      exact .inr (show Sel.Has t k st' s1 from match_new g.behind.atm hlen l2 hlt hit g.key (by rw [g.behind.type]; exact hm) hst hc hkey hl hk he h)
    · have k5 := (other_base a p x).visit (R := fun _ => True) (i := i) e ⟨g.behind.atm, l2⟩ (fun _ _ _ _ _ _ _ _ _ _ _ _ _ => trivial) (fun _ _ _ _ _ _ => trivial)
      rw [h] at k5
      refine .inl ⟨?_, k5.1.2⟩
      show s1.iter + 1 ≤ q
      have k4' : s1.iter = s.iter := k4
      have : s.iter ≠ q := fun e' => e (hi e')
      omega
  · have k5 := (other_base a j { core := st'.core, stateidx := k }).visit (R := fun _ => True) (i := i) (by omega) ⟨g.behind.atm, j2⟩
      (fun _ _ _ _ _ _ _ _ _ _ _ _ _ => trivial) (fun _ _ _ _ _ _ => trivial)
    rw [h] at k5
    exact .inr ⟨j, j1, k5.1.2⟩

theorem loop_coming (o : Opening a t) (w : Place t p q) (hm : x.core.mask.matches .OpenTag = true) (hst : a[x.stateidx]? = some st) (hc : x.core.cntEnd = -1)
    (hkey : ∀ k, st.key = some k → k = key) (hl : Linked a st.next k) (hk : a[k]? = some st') (he : st'.core.mask.empty = false) :
    ∀ (n : Nat) (s s' : Sel) (r : Int), Going a t .OpenTag key s → Coming t p q x k st' s → Sel.fetchLoop n s = (.ok r, s') →
      (r = 0 → Sel.Has t k st' s') ∧ (r ≠ 0 → Going a t .OpenTag key s' ∧ Coming t p q x k st' s')
  | 0, _, _, _, _, _, h => nomatch h
  | n + 1, s, s', r, g, l, h => by
    rw [loop_succ] at h
    have go : ∀ (v : Int) (s1 : Sel), Going a t .OpenTag key s1 → Coming t p q x k st' s1 → (if v = 0 then Sel.fetchLoop n else pure v : M Sel Int) s1 = (.ok r, s') →
        (r = 0 → Sel.Has t k st' s') ∧ (r ≠ 0 → Going a t .OpenTag key s' ∧ Coming t p q x k st' s') := by
      intro v s1 g1 l1 h
      by_cases hv : v = 0
      · rw [if_pos hv] at h
        exact loop_coming o w hm hst hc hkey hl hk he n s1 s' r g1 l1 h
      · rw [if_neg hv] at h
        cases h
        exact ⟨fun e => absurd e hv, fun _ => ⟨g1, l1⟩⟩
    have visit : ∀ i, (s.iter = q → i = p) → i < t.tokens.length → (do
        let type ← Sel.matchToken i
        M.modify fun s => { s with iter := s.iter + 1 }
        if type = 0 then Sel.fetchLoop n else pure type : M Sel Int) s = (.ok r, s') →
        (r = 0 → Sel.Has t k st' s') ∧ (r ≠ 0 → Going a t .OpenTag key s' ∧ Coming t p q x k st' s') := by
      intro i hi hit h
      rcases hy : Sel.matchToken i s with ⟨r1, s1⟩
      cases r1 with
      | stop er =>
        rw [M.bind_stop hy] at h
        cases h
      | ok v =>
        rw [M.bind_ok hy, M.bind_ok (M.modify_run _ _)] at h
        obtain ⟨g1, l1⟩ := visit_coming o w hm hst hc hkey hl hk he g l hi hit hy
        exact go v _ g1 l1 h
    have rest : Sel.Has t k st' s → (match s.triggers with
        | t :: ts => do
          M.modify fun s => { s with triggers := ts }
          if t = 0 then Sel.fetchLoop n else pure t
        | [] => do
          M.modify fun s => { s with key := none }
          pure 0 : M Sel Int) s = (.ok r, s') → (r = 0 → Sel.Has t k st' s') ∧ (r ≠ 0 → Going a t .OpenTag key s' ∧ Coming t p q x k st' s') := by
      intro l h
      cases hs : s.triggers with
      | nil =>
        rw [hs] at h
        cases h
        exact ⟨fun _ => l, fun e => absurd rfl e⟩
      | cons v ts =>
        rw [hs] at h
        simp only [] at h
        rw [M.bind_ok (M.modify_run _ _)] at h
        exact go v _ ⟨((behind_walks (type := .OpenTag) (key := key) (R := fun _ => True) o fun _ _ _ _ _ _ _ _ _ => trivial).pop s v ts g.behind hs).1, g.key, g.mask⟩ (.inr l) h
    have hto := g.behind.to'
    have hfrom := g.behind.from'
    have hidx := g.behind.idx
    have htop := w.top
    by_cases h1 : s.iter < s.scope.tokenTo
    · rw [if_pos h1] at h
      refine visit _ (fun e => ?_) (by omega) h
      rcases w.place with ⟨e', _⟩ | ⟨k, _, _, e'⟩ <;> omega
    · rw [if_neg h1] at h
      have pend : s.iter ≤ q → ∃ k, k < t.scope.followidx ∧ t.follows[k]? = some p ∧ q = t.tokens.length + k := by
        intro hq
        rcases w.place with ⟨e, _, e'⟩ | hk
        · omega
        · exact hk
      have widx := w.idx
      by_cases h2 : s.iter - s.scope.tokenTo < s.scope.followidx
      · rw [if_pos h2] at h
        obtain ⟨f, hf⟩ := get_of_lt (l := t.follows) (i := s.iter - s.scope.tokenTo) (by omega)
        have hf' := g.behind.fol _ f hf
        rw [hf'] at h
        simp only [] at h
        by_cases h4 : f < s.scope.tokenFrom
        · rw [if_pos h4] at h
          refine visit _ (fun e => ?_) (by omega) h
          obtain ⟨k, e1, e2, e3⟩ := pend (by omega)
          have : k = s.iter - s.scope.tokenTo := by omega
          rw [this, hf] at e2
          cases e2
          rfl
        · rw [if_neg h4] at h
          refine rest (l.resolve_left fun ⟨hq, _⟩ => ?_) h
          obtain ⟨k, e1, e2, e3⟩ := pend hq
          have := w.old _ f (by omega) hf
          omega
      · rw [if_neg h2] at h
        refine rest (l.resolve_left fun ⟨hq, _⟩ => ?_) h
        obtain ⟨k, e1, e2, e3⟩ := pend hq
        omega

theorem walk_coming (o : Opening a t) (w : Place t p q) (hm : x.core.mask.matches .OpenTag = true) (hst : a[x.stateidx]? = some st) (hc : x.core.cntEnd = -1)
    (hkey : ∀ k, st.key = some k → k = key) (hl : Linked a st.next k) (hk : a[k]? = some st') (he : st'.core.mask.empty = false) (n : Nat) :
    ∀ (m : Nat) (e : Int) (s s' : Sel) (es : List Int), (e = 0 → Sel.Has t k st' s) → (e ≠ 0 → Going a t .OpenTag key s ∧ Coming t p q x k st' s) →
      Sel.walk n false m e s = (.ok es, s') → Sel.Has t k st' s'
  | 0, _, _, _, _, _, _, h => nomatch h
  | m + 1, e, s, s', es, hz, hn, h => by
    unfold Sel.walk at h
    by_cases h0 : e = 0
    · rw [if_pos h0] at h
      cases h
      exact hz h0
    · rw [if_neg h0] at h
      obtain ⟨g, l⟩ := hn h0
      rcases hy : Sel.fetch n s with ⟨r, s1⟩
      cases r with
      | stop er =>
        rw [M.bind_stop hy] at h
        cases h
      | ok v =>
        rw [M.bind_ok hy] at h
        have h' : (Sel.walk n false m v >>= fun es => (pure (e :: es) : M Sel (List Int))) s1 = (.ok es, s') := h
        rcases hw : Sel.walk n false m v s1 with ⟨r', s2⟩
        cases r' with
        | stop er =>
          rw [M.bind_stop hw] at h'
          cases h'
        | ok es' =>
          rw [M.bind_ok hw] at h'
          cases h'
          unfold Sel.fetch at hy
          rw [M.bind_ok (M.get_run _), if_pos (by rw [g.behind.type]; exact g.mask)] at hy
          obtain ⟨d1, d2⟩ := loop_coming o w hm hst hc hkey hl hk he n s s1 v g l hy
          exact walk_coming o w hm hst hc hkey hl hk he n m v s1 _ es' d1 d2 hw

end

/-- The selector at the start of the open tag after an open tag. -/
theorem behind_start {a : Atm} {t : Sel} (o : Opening a t) (key : List Byte) : Behind a t .OpenTag key (fun _ => True) (Sel.initElement .OpenTag key t) := by
  have hf : (if t.type = .OpenTag then t.scope.tokenTo else t.scope.tokenFrom) = t.scope.tokenTo := if_pos o.type
  unfold Sel.initElement
  simp only [hf, if_pos]
  exact ⟨o.atm, rfl, fun k e => by cases e; rfl, rfl, rfl, rfl, Nat.le_refl _, fun j x hx => ⟨x, hx, rfl, .refl _⟩, fun _ _ h => h, fun _ _ => trivial⟩

/-- The states listed without the follow tokens. -/
theorem listed_new {a : Atm} {s : Sel} (hs : Sound a s) {type : ElementType} {l : List Nat} (h : Sel.matchingStates type false s = (.ok l, s)) (j : Nat) :
    j ∈ l ↔ ∃ i x, s.scope.tokenTo ≤ i ∧ s.tokens[i]? = some x ∧ x.core.mask.matches type = true ∧ x.stateidx = j := by
  obtain ⟨l1, h1, _⟩ := matching_safe hs type (List.range' s.scope.tokenTo (s.tokens.length - s.scope.tokenTo)) (fun i hi => by
    have := hs.top
    have := List.mem_range'_1.1 hi
    omega)
  unfold Sel.matchingStates at h
  rw [M.bind_ok (M.get_run _), M.bind_ok h1] at h
  cases h
  rw [matching_mem type _ _ h1 j]
  have top := hs.top
  constructor
  · rintro ⟨i, h1, x, h2⟩
    exact ⟨i, x, (List.mem_range'_1.1 h1).1, h2⟩
  · rintro ⟨i, x, h1, h2, h3⟩
    have := lt_of_get h2
    exact ⟨i, List.mem_range'_1.2 ⟨h1, by omega⟩, x, h2, h3⟩

/-- What the open tag in an open tag adds. -/
theorem open_adds {a : Atm} {s t u : Sel} {n m : Nat} {key key' : List Byte} {rs rs' : List Int} {type : ElementType} {l l2 : List Nat} (hs : Sound a s) (hp : AllSpent a s) (hmk : Masked a s)
    (h1 : Sel.push n false .OpenTag key s = (.ok rs, t)) (h2 : Sel.push m false .OpenTag key' t = (.ok rs', u)) (hl : Sel.matchingStates .OpenTag true t = (.ok l, t))
    (hl2 : Sel.matchingStates type false u = (.ok l2, u)) :
    (∀ j ∈ l2, ∃ i ∈ l, ∃ st, a[i]? = some st ∧ (∀ k, st.key = some k → k = key') ∧ ∃ k st', Linked a st.next k ∧ a[k]? = some st' ∧ a[j]? = some st' ∧
      st'.core.mask.matches type = true) ∧
    ∀ i ∈ l, ∀ st, a[i]? = some st → st.core.cntEnd = -1 → (∀ k, st.key = some k → k = key') → ∀ k st', Linked a st.next k → a[k]? = some st' →
      st'.core.mask.matches type = true → k ∈ l2 := by
  obtain ⟨o, htr⟩ := open_done hs.atm h1
  obtain ⟨ts, tp, tm⟩ := push_keeps hs h1
  have tp := tp hp
  have tm := tm hmk
  have us := (push_keeps ts h2).1
  have o2 := (open_done ts.atm h2).1
  obtain ⟨v, s1, s2, g1, g2, hu⟩ := push_parts h2
  have wf := fresh_walks (key := key') o
  have f0 : Fresh a t key' (Sel.initElement .OpenTag key' t) := by
    refine ⟨behind_start o key', fun j y hj hy => ?_⟩
    have hy' : t.tokens[j]? = some y := by
      unfold Sel.initElement at hy
      simp only [if_pos] at hy
      exact hy
    have := lt_of_get hy'
    omega
  have f1 := wf.fetch m _ f0
  rw [g1] at f1
  have f2 := wf.walk m m v (f1.2 v rfl) s1 f1.1
  rw [g2] at f2
  have e2 : u = s2 := by
    rw [hu]
    unfold Sel.closeElement
    rw [if_neg]
    have ty : s2.type = .OpenTag := f2.1.behind.type
    rw [ty]
    decide
  subst e2
  have hto : u.scope.tokenTo = t.tokens.length := f2.1.behind.to'
  constructor
  · intro j hj
    obtain ⟨p, y, c1, c2, c3, rfl⟩ := (listed_new us hl2 j).1 hj
    obtain ⟨st', ⟨i, z, st, d1, d2, d3, d4, d5, k, d6, d7⟩, b2, b3⟩ := f2.1.new p y (by omega) c2
    refine ⟨z.stateidx, (listed_mem ts hl _).2 ⟨i, z, d1, d2, d3, rfl⟩, st, d4, d5, k, st', d6, d7, b2, ?_⟩
    rcases b3.2 with e | e
    · rw [← e]
      exact c3
    · rw [e] at c3
      unfold Mask.matches at c3
      simp at c3
  · intro i hi st hst hc hkey k st' hlk hk hm
    obtain ⟨p, x, c1, c2, c3, rfl⟩ := (listed_mem ts hl i).1 hi
    obtain ⟨st0, d1, d2⟩ := tp.2 x (List.mem_of_getElem? c2)
    rw [hst] at d1
    cases d1
    have hold : ∀ (k f : Nat), k < t.scope.followidx → t.follows[k]? = some f → f < t.scope.tokenTo := (open_old hs h1).2.2
    obtain ⟨q, wp⟩ : ∃ q, Place t p q := by
      rcases c1 with ⟨e1, e2⟩ | ⟨k, e1, e2⟩
      · exact ⟨p, .inl ⟨rfl, e1, e2⟩, hold, ts.fol, ts.top⟩
      · exact ⟨t.tokens.length + k, .inr ⟨k, e1, e2, rfl⟩, hold, ts.fol, ts.top⟩
    have hq : t.scope.tokenTo ≤ q := by
      have := ts.top
      rcases wp.place with ⟨e, e1, _⟩ | ⟨k, _, _, e⟩ <;> omega
    have h0' : Going a t .OpenTag key' (Sel.initElement .OpenTag key' t) ∧ Coming t p q x k st' (Sel.initElement .OpenTag key' t) := by
      refine ⟨⟨behind_start o key', ?_, ?_⟩, .inl ?_⟩
      all_goals
        have hf : (if t.type = .OpenTag then t.scope.tokenTo else t.scope.tokenFrom) = t.scope.tokenTo := if_pos o.type
        unfold Sel.initElement
        simp only [hf, if_pos]
      · unfold Mask.matches Mask.match
        simp only [ElementType.toNat, Nat.testBit_or, Nat.one_shiftLeft, Nat.testBit_two_pow_self, Bool.or_true]
      · exact ⟨hq, c2⟩
    obtain ⟨hg, hlv⟩ := h0'
    have hcx : x.core.cntEnd = -1 := (d2.free (by omega)).trans hc
    unfold Sel.fetch at g1
    rw [M.bind_ok (M.get_run _), if_pos (by rw [hg.behind.type]; exact hg.mask)] at g1
    obtain ⟨e1, e2⟩ := loop_coming o wp c3 hst hcx hkey hlk hk (not_empty hm) m _ s1 v hg hlv g1
    obtain ⟨j, j1, j2⟩ := walk_coming o wp c3 hst hcx hkey hlk hk (not_empty hm) m m v s1 u rs' e1 e2 g2
    exact (listed_new us hl2 k).2 ⟨j, _, by omega, j2, hm, rfl⟩

end TW.Path
