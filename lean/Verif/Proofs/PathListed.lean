import Verif.Spec.PathListed
import Verif.Proofs.PathSpent

/-!
# What a selector reports comes from the tokens visited
-/

namespace TW.Path

/-- A function keeps an invariant and its results meet a condition. -/
def Holding {α : Type} (I : Sel → Prop) (x : M Sel α) (Q : α → Prop) : Prop := ∀ s, I s → I (x s).2 ∧ ∀ v, (x s).1 = .ok v → Q v

section

variable {I : Sel → Prop}

theorem Holding.pure {α : Type} {v : α} {Q : α → Prop} (h : Q v) : Holding I (pure v : M Sel α) Q := fun _ hs => ⟨hs, fun _ e => by cases e; exact h⟩

theorem Holding.stop {α : Type} {Q : α → Prop} (er : Stop) : Holding I (M.stop er : M Sel α) Q := fun _ hs => ⟨hs, fun _ e => nomatch e⟩

theorem Holding.bind {α β : Type} {x : M Sel α} {f : α → M Sel β} {P : α → Prop} {Q : β → Prop} (h : Holding I x P) (k : ∀ v, P v → Holding I (f v) Q) :
    Holding I (x >>= f) Q := by
  intro s hs
  rcases hy : x s with ⟨r, s1⟩
  have h1 := h s hs
  rw [hy] at h1
  cases r with
  | stop er =>
    rw [M.bind_stop hy]
    exact ⟨h1.1, fun _ e => nomatch e⟩
  | ok v =>
    rw [M.bind_ok hy]
    exact k v (h1.2 v rfl) s1 h1.1

theorem Holding.modify {f : Sel → Sel} (h : ∀ s, I s → I (f s)) : Holding I (M.modify f) fun _ => True := fun s hs => ⟨h s hs, fun _ _ => trivial⟩

theorem Holding.ite {α : Type} {Q : α → Prop} {c : Prop} [Decidable c] {x y : M Sel α} (h : Holding I x Q) (k : Holding I y Q) : Holding I (if c then x else y) Q := by
  split
  · exact h
  · exact k

theorem Holding.mono {α : Type} {P Q : α → Prop} {x : M Sel α} (h : Holding I x P) (k : ∀ v, P v → Q v) : Holding I x Q :=
  fun s hs => ⟨(h s hs).1, fun v e => k v ((h s hs).2 v e)⟩

end

/-- Nothing of the core of a token changes but the counters, and that the mask is emptied. -/
def Fades (x y : Core) : Prop := y.typeidx = x.typeidx ∧ (y.mask = x.mask ∨ y.mask = {})

theorem Fades.refl (x : Core) : Fades x x := ⟨rfl, .inl rfl⟩

theorem Fades.trans {x y z : Core} (h : Fades x y) (k : Fades y z) : Fades x z :=
  ⟨k.1.trans h.1, k.2.elim (fun e => h.2.elim (fun e' => .inl (e.trans e')) fun e' => .inr (e.trans e')) .inr⟩

theorem Fades.count (x : Core) : Fades x (Sel.count x) := by
  refine ⟨rfl, ?_⟩
  unfold Sel.count
  show (if x.cntEnd - 1 = 0 then ({} : Mask) else x.mask) = _ ∨ _ = _
  split
  · exact .inr rfl
  · exact .inl rfl

/-- An invariant of activating states that meet `P` and of using the tokens at the positions `C`. -/
structure Base (a : Atm) (I : Sel → Prop) (P : State → Prop) (C : Nat → Prop) : Prop where
  atm : ∀ s, I s → s.atm = a
  act : ∀ s i st, I s → a[i]? = some st → P st → I (Sel.activate st i s)
  core : ∀ s i x c, C i → I s → s.tokens[i]? = some x → Fades x.core c → I { s with tokens := s.tokens.set i { x with core := c } }

section

variable {a : Atm} {I : Sel → Prop} {P : State → Prop} {C : Nat → Prop}

theorem activate_tokens (st : State) (i : Nat) (s : Sel) : (Sel.activate st i s).tokens = s.tokens ∨
    (Sel.activate st i s).tokens = s.tokens ++ [{ core := st.core, stateidx := i }] := by
  unfold Sel.activate
  by_cases h1 : st.core.mask.empty ∧ st.core.typeidx ≠ 0
  · simp only [if_pos h1]
    exact .inl trivial
  · simp only [if_neg h1]
    by_cases h2 : st.core.follow = true
    · simp only [if_pos h2]
      exact .inr trivial
    · simp only [if_neg h2]
      exact .inr trivial

/-- A token stays at its place. -/
theorem activate_get {st : State} {i : Nat} {s : Sel} {j : Nat} {x : Token} (h : s.tokens[j]? = some x) : (Sel.activate st i s).tokens[j]? = some x := by
  rcases activate_tokens st i s with k | k <;> rw [k]
  · exact h
  · rw [List.getElem?_append_left (lt_of_get h)]
    exact h

/-- The type of a token stays. -/
theorem Base.typed (b : Base a I P C) (j : Nat) (ty : Int) : Base a (fun s => I s ∧ ∃ x, s.tokens[j]? = some x ∧ x.core.typeidx = ty) P C where
  atm s h := b.atm s h.1
  act s i st h k p := ⟨b.act s i st h.1 k p, by
    obtain ⟨x, h1, h2⟩ := h.2
    exact ⟨x, activate_get h1, h2⟩⟩
  core s i x c hc h k f := ⟨b.core s i x c hc h.1 k f, by
    obtain ⟨y, h1, h2⟩ := h.2
    by_cases e : i = j
    · subst e
      rw [k] at h1
      cases h1
      exact ⟨_, List.getElem?_set_self (lt_of_get k), f.1.trans h2⟩
    · exact ⟨y, by rw [List.getElem?_set_ne e]; exact h1, h2⟩⟩

theorem Base.expand (b : Base a I P C) : ∀ (n : Nat) (o : Option Nat), (∀ k st, Linked a o k → a[k]? = some st → P st) → Holding I (Sel.expand n o) fun _ => True
  | 0, none, _ => .pure trivial
  | _ + 1, none, _ => .pure trivial
  | 0, some i, _ => .stop _
  | n + 1, some i, ho => by
    intro s hs
    unfold Sel.expand
    cases hi : s.atm[i]? with
    | none =>
      rw [M.bind_stop (show Sel.stateAt i s = (.stop .ub, s) by unfold Sel.stateAt; rw [hi])]
      exact ⟨hs, fun _ e => nomatch e⟩
    | some st =>
      rw [M.bind_ok (show Sel.stateAt i s = (.ok st, s) by unfold Sel.stateAt; rw [hi]), M.bind_ok (M.modify_run _ _)]
      rw [b.atm s hs] at hi
      exact b.expand n st.link (fun k st' hk => ho k st' (.next hi hk)) _ (b.act s i st hs hi (ho i st (.here i) hi))

theorem Base.change (b : Base a I P C) {i : Nat} (hi : C i) (f : Core → Core) (hf : ∀ c, Fades c (f c)) : Holding I (Sel.change i f) fun _ => True := by
  intro s hs
  unfold Sel.change
  cases hx : s.tokens[i]? with
  | none => exact ⟨hs, fun _ _ => trivial⟩
  | some x => exact ⟨b.core s i x _ hi hs hx (hf _), fun _ _ => trivial⟩

theorem tokenAt_keeps (i : Nat) : Holding I (Sel.tokenAt i) fun _ => True := by
  intro s hs
  unfold Sel.tokenAt
  split <;> exact ⟨hs, fun _ _ => trivial⟩

theorem Base.produce (b : Base a I P C) {i : Nat} (hi : C i) (st : State) (h : ∀ k st', Linked a st.next k → a[k]? = some st' → P st') :
    Holding I (Sel.produce i st) fun _ => True := by
  unfold Sel.produce
  intro s hs
  rw [M.bind_ok (M.get_run _)]
  refine ((tokenAt_keeps i).bind fun tk _ => .ite (b.expand _ _ h) (.ite ((b.change hi _ .count).bind fun _ _ => .ite (b.expand _ _ h) (b.change hi _ ?_)) (.pure trivial))) s hs
  exact fun c => ⟨rfl, .inl rfl⟩

theorem Base.emit (b : Base a I P C) {i : Nat} (hi : C i) (ty : Int) : Holding (fun s => I s ∧ ∃ x, s.tokens[i]? = some x ∧ x.core.typeidx = ty) (Sel.emit i) fun r => r = 0 ∨ r = ty := by
  intro s hs
  obtain ⟨x, hx, ht⟩ := hs.2
  unfold Sel.emit
  rw [M.bind_ok (show Sel.tokenAt i s = (.ok x, s) by unfold Sel.tokenAt; rw [hx])]
  have k := b.typed i ty
  refine (Holding.ite (.ite (.pure (.inr ht)) (.ite ((k.change hi _ .count).bind fun _ _ => .ite (.pure (.inr ht)) ((k.change hi _ ?_).bind fun _ _ => .pure (.inl rfl))) (.pure (.inl rfl)))) (.pure (.inl rfl))) s hs
  exact fun c => ⟨rfl, .inl rfl⟩

/-- A matching token reports its type or nothing. -/
theorem Base.visit (b : Base a I P C) {R : Int → Prop} {i : Nat} (hi : C i) {s : Sel} (hs : I s)
    (hp : ∀ x key st, s.tokens[i]? = some x → i < s.scope.tokenTo → x.core.mask.matches s.type = true → s.key = some key → a[x.stateidx]? = some st →
      (∀ k, st.key = some k → k = key) → ∀ k st', Linked a st.next k → a[k]? = some st' → P st')
    (hr : ∀ x st, s.tokens[i]? = some x → i < s.scope.tokenTo → x.core.mask.matches s.type = true → a[x.stateidx]? = some st → R x.core.typeidx) :
    I (Sel.matchToken i s).2 ∧ ∀ r, (Sel.matchToken i s).1 = .ok r → r = 0 ∨ R r := by
  unfold Sel.matchToken
  rw [M.bind_ok (M.get_run _)]
  cases hk : s.key with
  | none => exact ⟨hs, fun r e => by cases e; exact .inl rfl⟩
  | some key =>
    by_cases hto : s.scope.tokenTo ≤ i
    · simp only [if_pos hto]
      exact ⟨hs, fun r e => by cases e; exact .inl rfl⟩
    · simp only [if_neg hto]
      have hf : I (Sel.fire i s.type key s).2 ∧ ∀ r, (Sel.fire i s.type key s).1 = .ok r → r = 0 ∨ R r := by
        unfold Sel.fire
        cases hx : s.tokens[i]? with
        | none =>
          rw [M.bind_stop (show Sel.tokenAt i s = (.stop .ub, s) by unfold Sel.tokenAt; rw [hx])]
          exact ⟨hs, fun _ e => nomatch e⟩
        | some x =>
          rw [M.bind_ok (show Sel.tokenAt i s = (.ok x, s) by unfold Sel.tokenAt; rw [hx])]
          by_cases hm : x.core.mask.matches s.type = true
          · rw [if_pos hm]
            cases hst : s.atm[x.stateidx]? with
            | none =>
              rw [M.bind_stop (show Sel.stateAt x.stateidx s = (.stop .ub, s) by unfold Sel.stateAt; rw [hst])]
              exact ⟨hs, fun _ e => nomatch e⟩
            | some st =>
              rw [M.bind_ok (show Sel.stateAt x.stateidx s = (.ok st, s) by unfold Sel.stateAt; rw [hst])]
              rw [b.atm s hs] at hst
              have hj : (∀ k, st.key = some k → k = key) → ∀ k st', Linked a st.next k → a[k]? = some st' → P st' :=
                hp x key st hx (by omega) hm hk hst
              have hfol : Holding (fun s => I s ∧ ∃ y, s.tokens[i]? = some y ∧ y.core.typeidx = x.core.typeidx) (Sel.follow i key st) fun _ => True := by
                unfold Sel.follow
                cases hsk : st.key with
                | none => exact (b.typed i _).produce hi st (hj fun k e => by rw [hsk] at e; cases e)
                | some k =>
                  simp only []
                  split
                  · next e => exact (b.typed i _).produce hi st (hj fun k' e' => by rw [hsk] at e'; cases e'; exact e)
                  · exact .pure trivial
              have := (hfol.bind fun _ _ => b.emit hi x.core.typeidx) s ⟨hs, x, hx, rfl⟩
              exact ⟨this.1.1, fun r e => (this.2 r e).imp id fun e' => by rw [e']; exact hr x st hx (by omega) hm hst⟩
          · rw [if_neg hm]
            exact ⟨hs, fun r e => by cases e; exact .inl rfl⟩
      rcases hy : Sel.fire i s.type key s with ⟨r, s1⟩
      rw [hy] at hf
      cases r with
      | stop er =>
        rw [M.bind_stop hy]
        exact ⟨hf.1, fun _ e => nomatch e⟩
      | ok v =>
        rw [M.bind_ok hy]
        have hg : Holding I (Sel.giveUp i s.type) fun _ => True := by
          unfold Sel.giveUp
          exact (tokenAt_keeps i).bind fun tk _ => .ite (b.change hi _ fun c => ⟨rfl, .inr rfl⟩) (.pure trivial)
        exact (hg.bind (Q := fun r => r = 0 ∨ R r) fun _ _ => .pure (hf.2 v rfl)) s1 hf.1

end

/-- The positions visited. -/
def Sel.Visits (s : Sel) (i : Nat) : Prop :=
  (i = s.iter ∧ i < s.scope.tokenTo) ∨ (∃ k, k < s.scope.followidx ∧ s.follows[k]? = some i ∧ i < s.scope.tokenFrom)

/-- An invariant of fetching, with which all types reported meet `R`. -/
structure Walks (a : Atm) (I : Sel → Prop) (P : State → Prop) (R : Int → Prop) : Prop extends Base a I P (fun _ => True) where
  step : ∀ s, I s → I { s with iter := s.iter + 1 }
  done : ∀ s, I s → I { s with key := none }
  pop : ∀ s t ts, I s → s.triggers = t :: ts → I { s with triggers := ts } ∧ R t
  vis : ∀ s i x key st, I s → s.Visits i → s.tokens[i]? = some x → i < s.scope.tokenTo → x.core.mask.matches s.type = true → s.key = some key →
    a[x.stateidx]? = some st → (∀ k, st.key = some k → k = key) → ∀ k st', Linked a st.next k → a[k]? = some st' → P st'
  out : ∀ s i x st, I s → s.Visits i → s.tokens[i]? = some x → i < s.scope.tokenTo → x.core.mask.matches s.type = true → a[x.stateidx]? = some st → R x.core.typeidx

section

variable {a : Atm} {I : Sel → Prop} {P : State → Prop} {R : Int → Prop}

theorem Walks.loop (w : Walks a I P R) : ∀ n, Holding I (Sel.fetchLoop n) fun r => r = 0 ∨ R r
  | 0 => .stop _
  | n + 1 => by
    intro s hs
    rw [loop_succ]
    have visit : ∀ i, s.Visits i → I ((do
        let type ← Sel.matchToken i
        M.modify fun s => { s with iter := s.iter + 1 }
        if type = 0 then Sel.fetchLoop n else pure type : M Sel Int) s).2 ∧ ∀ r, ((do
        let type ← Sel.matchToken i
        M.modify fun s => { s with iter := s.iter + 1 }
        if type = 0 then Sel.fetchLoop n else pure type : M Sel Int) s).1 = .ok r → r = 0 ∨ R r := by
      intro i hi
      have hm := w.toBase.visit (R := R) (i := i) trivial hs (fun x key st => w.vis s i x key st hs hi) (fun x st => w.out s i x st hs hi)
      rcases hy : Sel.matchToken i s with ⟨r, s1⟩
      rw [hy] at hm
      cases r with
      | stop er =>
        rw [M.bind_stop hy]
        exact ⟨hm.1, fun _ e => nomatch e⟩
      | ok v =>
        rw [M.bind_ok hy]
        exact ((Holding.modify (f := fun s => { s with iter := s.iter + 1 }) w.step).bind fun _ _ => .ite (w.loop n) (.pure (hm.2 v rfl))) s1 hm.1
    have rest : I ((match s.triggers with
        | t :: ts => do
          M.modify fun s => { s with triggers := ts }
          if t = 0 then Sel.fetchLoop n else pure t
        | [] => do
          M.modify fun s => { s with key := none }
          pure 0 : M Sel Int) s).2 ∧ ∀ r, ((match s.triggers with
        | t :: ts => do
          M.modify fun s => { s with triggers := ts }
          if t = 0 then Sel.fetchLoop n else pure t
        | [] => do
          M.modify fun s => { s with key := none }
          pure 0 : M Sel Int) s).1 = .ok r → r = 0 ∨ R r := by
      cases ht : s.triggers with
      | nil => exact ((Holding.modify (f := fun s => { s with key := none }) w.done).bind fun _ _ => .pure (.inl rfl)) s hs
      | cons x ts =>
        obtain ⟨h1, h2⟩ := w.pop s x ts hs ht
        simp only []
        rw [M.bind_ok (M.modify_run _ _)]
        exact (Holding.ite (w.loop n) (.pure (.inr h2))) _ h1
    by_cases h1 : s.iter < s.scope.tokenTo
    · rw [if_pos h1]
      exact visit _ (.inl ⟨rfl, h1⟩)
    · rw [if_neg h1]
      by_cases h2 : s.iter - s.scope.tokenTo < s.scope.followidx
      · rw [if_pos h2]
        cases h3 : s.follows[s.iter - s.scope.tokenTo]? with
        | none => exact ⟨hs, fun _ e => nomatch e⟩
        | some i =>
          simp only []
          by_cases h4 : i < s.scope.tokenFrom
          · rw [if_pos h4]
            exact visit _ (.inr ⟨_, h2, h3, h4⟩)
          · rw [if_neg h4]
            exact rest
      · rw [if_neg h2]
        exact rest

theorem Walks.fetch (w : Walks a I P R) (n : Nat) : Holding I (Sel.fetch n) fun r => r = 0 ∨ R r := by
  unfold Sel.fetch
  intro s hs
  rw [M.bind_ok (M.get_run _)]
  exact (Holding.ite (w.loop n) ((Holding.modify (f := fun s => { s with key := none }) w.done).bind fun _ _ => .pure (.inl rfl))) s hs

theorem Walks.walk (w : Walks a I P R) (n : Nat) : ∀ (k : Nat) (e : Int), (e = 0 ∨ R e) → Holding I (Sel.walk n false k e) fun es => ∀ r ∈ es, R r
  | 0, _, _ => .stop _
  | k + 1, e, he => by
    unfold Sel.walk
    by_cases h0 : e = 0
    · rw [if_pos h0]
      exact .pure fun _ h => nomatch h
    · rw [if_neg h0]
      have hR : R e := he.resolve_left h0
      refine (w.fetch n).bind fun v hv => ?_
      refine (w.walk n k v hv).bind fun es hes => .pure fun r hr => ?_
      rcases List.mem_cons.1 hr with rfl | hr
      · exact hR
      · exact hes r hr

end

/-- After the last result there are no triggers left. -/
theorem loop_zero : ∀ (n : Nat) (s t : Sel), Sel.fetchLoop n s = (.ok 0, t) → t.triggers = []
  | 0, s, t, h => nomatch h
  | n + 1, s, t, h => by
    rw [loop_succ] at h
    have go : ∀ (v : Int) (s1 : Sel), (if v = 0 then Sel.fetchLoop n else pure v : M Sel Int) s1 = (.ok 0, t) → t.triggers = [] := by
      intro v s1 h
      split at h
      · exact loop_zero n s1 t h
      · next hv =>
        cases h
        exact absurd rfl hv
    have visit : ∀ i, (do
        let type ← Sel.matchToken i
        M.modify fun s => { s with iter := s.iter + 1 }
        if type = 0 then Sel.fetchLoop n else pure type : M Sel Int) s = (.ok 0, t) → t.triggers = [] := by
      intro i h
      rcases hy : Sel.matchToken i s with ⟨r, s1⟩
      cases r with
      | stop er =>
        rw [M.bind_stop hy] at h
        cases h
      | ok v =>
        rw [M.bind_ok hy, M.bind_ok (M.modify_run _ _)] at h
        exact go _ _ h
    have rest : (match s.triggers with
        | t :: ts => do
          M.modify fun s => { s with triggers := ts }
          if t = 0 then Sel.fetchLoop n else pure t
        | [] => do
          M.modify fun s => { s with key := none }
          pure 0 : M Sel Int) s = (.ok 0, t) → t.triggers = [] := by
      intro h
      cases ht : s.triggers with
      | nil =>
        rw [ht] at h
        cases h
        exact ht
      | cons x ts =>
        rw [ht] at h
        exact go _ _ h
    by_cases h1 : s.iter < s.scope.tokenTo
    · rw [if_pos h1] at h
      exact visit _ h
    · rw [if_neg h1] at h
      by_cases h2 : s.iter - s.scope.tokenTo < s.scope.followidx
      · rw [if_pos h2] at h
        cases h3 : s.follows[s.iter - s.scope.tokenTo]? with
        | none =>
          rw [h3] at h
          cases h
        | some i =>
          rw [h3] at h
          simp only [] at h
          by_cases h4 : i < s.scope.tokenFrom
          · rw [if_pos h4] at h
            exact visit _ h
          · rw [if_neg h4] at h
            exact rest h
      · rw [if_neg h2] at h
        exact rest h

/-! ## The states listed -/

theorem fetch_zero {n : Nat} {s t : Sel} (hm : s.scope.mask.matches s.type = true) (h : Sel.fetch n s = (.ok 0, t)) : t.triggers = [] := by
  unfold Sel.fetch at h
  rw [M.bind_ok (M.get_run _), if_pos hm] at h
  exact loop_zero n s t h

theorem walk_zero {a : Atm} {I : Sel → Prop} {P : State → Prop} {R : Int → Prop} (w : Walks a I P R) (hm : ∀ s, I s → s.scope.mask.matches s.type = true) (n : Nat) :
    ∀ (k : Nat) (e : Int) (s t : Sel) (es : List Int), I s → (e = 0 → s.triggers = []) → (e = 0 ∨ R e) → Sel.walk n false k e s = (.ok es, t) → t.triggers = []
  | 0, _, _, _, _, _, _, _, h => nomatch h
  | k + 1, e, s, t, es, hs, hz, he, h => by
    unfold Sel.walk at h
    by_cases h0 : e = 0
    · rw [if_pos h0] at h
      cases h
      exact hz h0
    · rw [if_neg h0] at h
      have hf := w.fetch n s hs
      rcases hy : Sel.fetch n s with ⟨r, s1⟩
      rw [hy] at hf
      cases r with
      | stop er =>
        rw [M.bind_stop hy] at h
        cases h
      | ok v =>
        rw [M.bind_ok hy] at h
        have h' : (Sel.walk n false k v >>= fun es => (pure (e :: es) : M Sel (List Int))) s1 = (.ok es, t) := h
        rcases hw : Sel.walk n false k v s1 with ⟨r', s2⟩
        cases r' with
        | stop er =>
          rw [M.bind_stop hw] at h'
          cases h'
        | ok es' =>
          rw [M.bind_ok hw] at h'
          cases h'
          exact walk_zero w hm n k v s1 _ es' hf.1 (fun e0 => by subst e0; exact fetch_zero (hm s hs) hy) (hf.2 v rfl) hw

/-- The parts of `push`. -/
theorem push_parts {n : Nat} {type : ElementType} {key : List Byte} {s t : Sel} {rs : List Int} (h : Sel.push n false type key s = (.ok rs, t)) :
    ∃ v s1 s2, Sel.fetch n (Sel.initElement type key s) = (.ok v, s1) ∧ Sel.walk n false n v s1 = (.ok rs, s2) ∧ t = Sel.closeElement s2 := by
  unfold Sel.push at h
  rw [M.bind_ok (M.modify_run _ _)] at h
  rcases hy : Sel.fetch n (Sel.initElement type key s) with ⟨r, s1⟩
  cases r with
  | stop er =>
    rw [M.bind_stop hy] at h
    cases h
  | ok v =>
    rw [M.bind_ok hy] at h
    rcases hw : Sel.walk n false n v s1 with ⟨r', s2⟩
    cases r' with
    | stop er =>
      rw [M.bind_stop hw] at h
      cases h
    | ok es =>
      rw [M.bind_ok hw] at h
      cases h
      exact ⟨v, s1, s2, rfl, hw, rfl⟩

/-- While the results of an open tag are fetched. -/
structure Opening (a : Atm) (s : Sel) : Prop where
  atm : s.atm = a
  type : s.type = .OpenTag
  mask : s.scope.mask.matches .OpenTag = true
  top : s.scope.tokenTo ≤ s.tokens.length
  old : ∀ (k f : Nat), s.follows[k]? = some f → f < s.scope.tokenTo → k < s.scope.followidx

theorem join_matches {m o : Mask} {e : ElementType} (h : m.matches e = true) : (m.join o).matches e = true := by
  unfold Mask.matches Mask.join at *
  simp only [Nat.testBit_or, h, Bool.true_or]

theorem opening_walks (a : Atm) : Walks a (Opening a) (fun _ => True) (fun _ => True) where
  atm s h := h.atm
  act s i st h _ _ := by
    obtain ⟨h1, h2, h3, h4, h5⟩ := h
    unfold Sel.activate
    by_cases c1 : st.core.mask.empty ∧ st.core.typeidx ≠ 0
    · simp only [if_pos c1]
      exact ⟨h1, h2, join_matches h3, h4, h5⟩
    · simp only [if_neg c1]
      have len : s.scope.tokenTo ≤ (s.tokens ++ [({ core := st.core, stateidx := i } : Token)]).length := by
        rw [List.length_append]
        omega
      by_cases c2 : st.core.follow = true
      · simp only [if_pos c2]
        refine ⟨h1, h2, join_matches h3, len, fun k f hk hf => ?_⟩
        have hk' : (s.follows ++ [s.tokens.length])[k]? = some f := hk
        rcases Nat.lt_or_ge k s.follows.length with hl | hl
        · rw [List.getElem?_append_left hl] at hk'
          exact h5 k f hk' hf
        · rw [List.getElem?_append_right hl] at hk'
          have := List.mem_singleton.1 (List.mem_of_getElem? hk')
          have hf' : f < s.scope.tokenTo := hf
          omega
      · simp only [if_neg c2]
        exact ⟨h1, h2, join_matches h3, len, h5⟩
  core s i x c _ h hx hc := ⟨h.atm, h.type, h.mask, by show s.scope.tokenTo ≤ (s.tokens.set i _).length; rw [List.length_set]; exact h.top, h.old⟩
  step s h := ⟨h.atm, h.type, h.mask, h.top, h.old⟩
  done s h := ⟨h.atm, h.type, h.mask, h.top, h.old⟩
  pop s t ts h _ := ⟨⟨h.atm, h.type, h.mask, h.top, h.old⟩, trivial⟩
  vis _ _ _ _ _ _ _ _ _ _ _ _ _ _ _ _ _ := trivial
  out _ _ _ _ _ _ _ _ _ _ := trivial

/-- After all results of an open tag. -/
theorem open_done {a : Atm} {n : Nat} {key : List Byte} {s t : Sel} {rs : List Int} (ha : s.atm = a) (h : Sel.push n false .OpenTag key s = (.ok rs, t)) :
    Opening a t ∧ t.triggers = [] := by
  have h0 : Opening a (Sel.initElement .OpenTag key s) := by
    unfold Sel.initElement
    simp only [if_pos]
    refine ⟨ha, rfl, ?_, Nat.le_refl _, fun k f hk _ => lt_of_get hk⟩
    unfold Mask.matches Mask.match
    simp only [ElementType.toNat, Nat.testBit_or, Nat.one_shiftLeft, Nat.testBit_two_pow_self, Bool.or_true]
  obtain ⟨v, s1, s2, h1, h2, rfl⟩ := push_parts h
  have w := opening_walks a
  have hm : ∀ s, Opening a s → s.scope.mask.matches s.type = true := fun s h => by rw [h.type]; exact h.mask
  have k1 := w.fetch n _ h0
  rw [h1] at k1
  have k2 := w.walk n n v (k1.2 v rfl) s1 k1.1
  rw [h2] at k2
  have k3 := walk_zero w hm n n v s1 s2 rs k1.1 (fun e => by subst e; exact fetch_zero (hm _ h0) h1) (k1.2 v rfl) h2
  have e : Sel.closeElement s2 = s2 := by
    unfold Sel.closeElement
    rw [if_neg]
    have ht : s2.type = .OpenTag := k2.1.type
    rw [ht]
    decide
  rw [e]
  exact ⟨k2.1, k3⟩

/-- The tokens looked at. -/
def Sel.Listed (s : Sel) (i : Nat) : Prop :=
  (s.scope.tokenTo ≤ i ∧ i < s.tokens.length) ∨ ∃ k, k < s.scope.followidx ∧ s.follows[k]? = some i

/-- While the results of the item after an open tag are fetched: `t` is the selector before. -/
structure Behind (a : Atm) (t : Sel) (type : ElementType) (key : List Byte) (R : Int → Prop) (s : Sel) : Prop where
  atm : s.atm = a
  type : s.type = type
  key : ∀ k, s.key = some k → k = key
  from' : s.scope.tokenFrom = t.scope.tokenTo
  to' : s.scope.tokenTo = t.tokens.length
  idx : s.scope.followidx = t.follows.length
  iter : t.scope.tokenTo ≤ s.iter
  toks : ∀ (j : Nat) x, t.tokens[j]? = some x → ∃ y, s.tokens[j]? = some y ∧ y.stateidx = x.stateidx ∧ Fades x.core y.core
  fol : ∀ (k f : Nat), t.follows[k]? = some f → s.follows[k]? = some f
  trig : ∀ ty ∈ s.triggers, R ty

theorem Behind.visits {a : Atm} {t : Sel} {type : ElementType} {key : List Byte} {R : Int → Prop} {s : Sel} (o : Opening a t) (h : Behind a t type key R s)
    {i : Nat} (v : s.Visits i) {x : Token} (hx : s.tokens[i]? = some x) (hi : i < s.scope.tokenTo) (hm : x.core.mask.matches s.type = true) :
    ∃ y, t.tokens[i]? = some y ∧ t.Listed i ∧ y.core.mask.matches type = true ∧ y.stateidx = x.stateidx ∧ y.core.typeidx = x.core.typeidx := by
  rw [h.to'] at hi
  obtain ⟨y, hy⟩ := get_of_lt hi
  obtain ⟨z, k1, k2, k3, k4⟩ := h.toks i y hy
  rw [hx] at k1
  cases k1
  refine ⟨y, hy, ?_, ?_, k2.symm, k3.symm⟩
  · rcases v with ⟨e, _⟩ | ⟨k, v1, v2, v3⟩
    · have := h.iter
      exact .inl ⟨by omega, hi⟩
    · rw [h.idx] at v1
      obtain ⟨f, hf⟩ := get_of_lt v1
      have e := h.fol k f hf
      rw [v2] at e
      cases e
      rw [h.from'] at v3
      exact .inr ⟨k, o.old k i hf v3, hf⟩
  · rw [h.type] at hm
    rcases k4 with e | e
    · rw [← e]
      exact hm
    · rw [e] at hm
      unfold Mask.matches at hm
      simp at hm

theorem behind_walks {a : Atm} {t : Sel} {type : ElementType} {key : List Byte} {R : Int → Prop} (o : Opening a t)
    (hR : ∀ i y st ty, t.Listed i → t.tokens[i]? = some y → y.core.mask.matches type = true → a[y.stateidx]? = some st →
      (y.core.typeidx = ty ∨ Reports a key st ty) → R ty) :
    Walks a (Behind a t type key R) (fun st => st.core.mask.empty = true → R st.core.typeidx) R where
  atm s h := h.atm
  act s i st h _ hp := by
    obtain ⟨h1, h2, h3, h4, h5, h6, h7, h8, h9, h10⟩ := h
    unfold Sel.activate
    by_cases c1 : st.core.mask.empty ∧ st.core.typeidx ≠ 0
    · simp only [if_pos c1]
      refine ⟨h1, h2, h3, h4, h5, h6, h7, h8, h9, fun ty hty => ?_⟩
      rcases List.mem_cons.1 hty with rfl | hty
      · exact hp c1.1
      · exact h10 ty hty
    · simp only [if_neg c1]
      have tk : ∀ (j : Nat) x, t.tokens[j]? = some x → ∃ y, (s.tokens ++ [({ core := st.core, stateidx := i } : Token)])[j]? = some y ∧ y.stateidx = x.stateidx ∧ Fades x.core y.core := by
        intro j x hx
        obtain ⟨y, k1, k2⟩ := h8 j x hx
        exact ⟨y, by rw [List.getElem?_append_left (lt_of_get k1)]; exact k1, k2⟩
      by_cases c2 : st.core.follow = true
      · simp only [if_pos c2]
        refine ⟨h1, h2, h3, h4, h5, h6, h7, tk, fun k f hk => ?_, h10⟩
        show (s.follows ++ [s.tokens.length])[k]? = some f
        rw [List.getElem?_append_left (lt_of_get (h9 k f hk))]
        exact h9 k f hk
      · simp only [if_neg c2]
        exact ⟨h1, h2, h3, h4, h5, h6, h7, tk, h9, h10⟩
  core s i x c _ h hx hc := by
    obtain ⟨h1, h2, h3, h4, h5, h6, h7, h8, h9, h10⟩ := h
    refine ⟨h1, h2, h3, h4, h5, h6, h7, fun j y hy => ?_, h9, h10⟩
    obtain ⟨z, k1, k2, k3⟩ := h8 j y hy
    by_cases e : i = j
    · subst e
      rw [hx] at k1
      cases k1
      exact ⟨_, List.getElem?_set_self (lt_of_get hx), k2, k3.trans hc⟩
    · exact ⟨z, by show (s.tokens.set i _)[j]? = _; rw [List.getElem?_set_ne e]; exact k1, k2, k3⟩
  step s h := ⟨h.atm, h.type, h.key, h.from', h.to', h.idx, Nat.le_succ_of_le h.iter, h.toks, h.fol, h.trig⟩
  done s h := ⟨h.atm, h.type, (fun _ e => nomatch e), h.from', h.to', h.idx, h.iter, h.toks, h.fol, h.trig⟩
  pop s ty ts h e := by
    have := h.trig
    rw [e] at this
    exact ⟨⟨h.atm, h.type, h.key, h.from', h.to', h.idx, h.iter, h.toks, h.fol, fun ty hty => this ty (List.mem_cons_of_mem _ hty)⟩, this ty (List.mem_cons_self ..)⟩
  vis s i x k st h v hx hi hm hk hst hkey j st' hl hj he := by
    obtain ⟨y, k1, k2, k3, k4, _⟩ := h.visits o v hx hi hm
    have e := h.key k hk
    subst e
    exact hR i y st _ k2 k1 k3 (by rw [k4]; exact hst) (.inr (.inr ⟨hkey, j, st', hl, hj, he, rfl⟩))
  out s i x st h v hx hi hm hst := by
    obtain ⟨y, k1, k2, k3, k4, k5⟩ := h.visits o v hx hi hm
    exact hR i y st _ k2 k1 k3 (by rw [k4]; exact hst) (.inl k5)

theorem matching_mem {s : Sel} (type : ElementType) : ∀ (is : List Nat) (l : List Nat), Sel.matching type is s = (.ok l, s) →
    ∀ j, j ∈ l ↔ ∃ i ∈ is, ∃ x, s.tokens[i]? = some x ∧ x.core.mask.matches type = true ∧ x.stateidx = j
  | [], l, h, j => by
    cases h
    exact ⟨(fun h => nomatch h), fun ⟨_, h, _⟩ => nomatch h⟩
  | i :: is, l, h, j => by
    unfold Sel.matching at h
    cases hx : s.tokens[i]? with
    | none =>
      rw [M.bind_stop (show Sel.tokenAt i s = (.stop .ub, s) by unfold Sel.tokenAt; rw [hx])] at h
      cases h
    | some x =>
      rw [M.bind_ok (show Sel.tokenAt i s = (.ok x, s) by unfold Sel.tokenAt; rw [hx])] at h
      have keep : ∀ is, (Sel.matching type is s).2 = s := by
        intro is
        induction is with
        | nil => rfl
        | cons i is ih =>
          unfold Sel.matching
          cases hx : s.tokens[i]? with
          | none => rw [M.bind_stop (show Sel.tokenAt i s = (.stop .ub, s) by unfold Sel.tokenAt; rw [hx])]
          | some x =>
            rw [M.bind_ok (show Sel.tokenAt i s = (.ok x, s) by unfold Sel.tokenAt; rw [hx])]
            rcases hm : Sel.matching type is s with ⟨r, s1⟩
            rw [hm] at ih
            cases ih
            cases r with
            | stop er => rw [M.bind_stop hm]
            | ok v => rw [M.bind_ok hm]; rfl
      have hk := keep is
      rcases hm : Sel.matching type is s with ⟨r, s1⟩
      rw [hm] at hk
      cases hk
      cases r with
      | stop er =>
        rw [M.bind_stop hm] at h
        cases h
      | ok v =>
        rw [M.bind_ok hm] at h
        have ih := matching_mem type is v hm j
        cases h
        by_cases c : x.core.mask.matches type = true
        · rw [if_pos c, List.mem_cons, ih]
          constructor
          · rintro (rfl | ⟨i', h1, h2⟩)
            · exact ⟨i, List.mem_cons_self .., x, hx, c, rfl⟩
            · exact ⟨i', List.mem_cons_of_mem _ h1, h2⟩
          · rintro ⟨i', h1, y, h2, h3, h4⟩
            rcases List.mem_cons.1 h1 with rfl | h1
            · rw [hx] at h2
              cases h2
              exact .inl h4.symm
            · exact .inr ⟨i', h1, y, h2, h3, h4⟩
        · rw [if_neg c, ih]
          constructor
          · rintro ⟨i', h1, h2⟩
            exact ⟨i', List.mem_cons_of_mem _ h1, h2⟩
          · rintro ⟨i', h1, y, h2, h3, h4⟩
            rcases List.mem_cons.1 h1 with rfl | h1
            · rw [hx] at h2
              cases h2
              exact absurd h3 c
            · exact ⟨i', h1, y, h2, h3, h4⟩

theorem followsAt_mem {a : Atm} {s : Sel} (hs : Sound a s) (type : ElementType) : ∀ (m k : Nat) (l : List Nat), k + m ≤ s.follows.length → Sel.followsAt type m k s = (.ok l, s) →
    ∀ j, j ∈ l ↔ ∃ n i, k ≤ n ∧ n < k + m ∧ s.follows[n]? = some i ∧ ∃ x, s.tokens[i]? = some x ∧ x.core.mask.matches type = true ∧ x.stateidx = j
  | 0, k, l, _, h, j => by
    cases h
    exact ⟨(fun h => nomatch h), fun ⟨n, i, h1, h2, _⟩ => by omega⟩
  | m + 1, k, l, hk, h, j => by
    obtain ⟨i, hi⟩ := get_of_lt (l := s.follows) (i := k) (by omega)
    obtain ⟨l1, k1, _⟩ := matching_safe hs type [i] (fun j hj => by
      cases List.mem_singleton.1 hj
      exact hs.refs i (List.mem_of_getElem? hi))
    obtain ⟨l2, j1, _⟩ := followsAt_safe hs type m (k + 1) (by omega)
    unfold Sel.followsAt at h
    rw [hi] at h
    simp only [] at h
    rw [M.bind_ok k1, M.bind_ok j1] at h
    cases h
    rw [List.mem_append, matching_mem type _ _ k1 j, followsAt_mem hs type m (k + 1) l2 (by omega) j1 j]
    constructor
    · rintro (⟨i', h1, x, h2⟩ | ⟨n, i', h1, h2, h3⟩)
      · cases List.mem_singleton.1 h1
        exact ⟨k, i, Nat.le_refl _, by omega, hi, x, h2⟩
      · exact ⟨n, i', by omega, by omega, h3⟩
    · rintro ⟨n, i', h1, h2, h3, x, h4⟩
      rcases Nat.lt_or_ge k n with c | c
      · exact .inr ⟨n, i', by omega, by omega, h3, x, h4⟩
      · have : n = k := by omega
        subst this
        rw [hi] at h3
        cases h3
        exact .inl ⟨i, List.mem_singleton.2 rfl, x, h4⟩

/-- The states listed are those of the tokens looked at that match. -/
theorem listed_mem {a : Atm} {s : Sel} (hs : Sound a s) {type : ElementType} {l : List Nat} (h : Sel.matchingStates type true s = (.ok l, s)) (j : Nat) :
    j ∈ l ↔ ∃ i x, s.Listed i ∧ s.tokens[i]? = some x ∧ x.core.mask.matches type = true ∧ x.stateidx = j := by
  obtain ⟨l1, h1, _⟩ := matching_safe hs type (List.range' s.scope.tokenTo (s.tokens.length - s.scope.tokenTo)) (fun i hi => by
    have := hs.top
    have := List.mem_range'_1.1 hi
    omega)
  obtain ⟨l2, k1, _⟩ := followsAt_safe hs type s.scope.followidx 0 (by
      have := hs.fol
      omega)
  unfold Sel.matchingStates at h
  rw [M.bind_ok (M.get_run _), M.bind_ok h1, if_pos rfl, M.bind_ok k1] at h
  cases h
  rw [List.mem_append, matching_mem type _ _ h1 j, followsAt_mem hs type _ 0 l2 (by have := hs.fol; omega) k1 j]
  have top := hs.top
  constructor
  · rintro (⟨i, h1, x, h2⟩ | ⟨n, i, _, h2, h3, x, h4⟩)
    · have := List.mem_range'_1.1 h1
      exact ⟨i, x, .inl ⟨this.1, by omega⟩, h2⟩
    · exact ⟨i, x, .inr ⟨n, by omega, h3⟩, h4⟩
  · rintro ⟨i, x, (⟨h1, h2⟩ | ⟨n, h1, h2⟩), h3⟩
    · exact .inl ⟨i, List.mem_range'_1.2 ⟨h1, by omega⟩, x, h3⟩
    · exact .inr ⟨n, i, by omega, by omega, h2, x, h3⟩

/-- What is reported for the item after an open tag comes from the states listed. -/
theorem open_listed {a : Atm} {s t u : Sel} {n m : Nat} {key key' : List Byte} {type : ElementType} {rs rs' : List Int} (ha : s.atm = a)
    (h1 : Sel.push n false .OpenTag key s = (.ok rs, t)) (hs : Sound a t) (hp : AllSpent a t) (h2 : Sel.push m false type key' t = (.ok rs', u)) :
    ∃ l, Sel.matchingStates type true t = (.ok l, t) ∧ ∀ ty ∈ rs', ∃ i ∈ l, ∃ st, a[i]? = some st ∧ Reports a key' st ty := by
  obtain ⟨o, htr⟩ := open_done ha h1
  obtain ⟨l, hl, _⟩ := matchingStates_safe hs type true
  refine ⟨l, hl, ?_⟩
  have w := behind_walks (type := type) (key := key') (R := fun ty => ∃ i ∈ l, ∃ st, a[i]? = some st ∧ Reports a key' st ty) o (fun i y st ty c1 c2 c3 c4 c5 => by
    refine ⟨y.stateidx, (listed_mem hs hl _).2 ⟨i, y, c1, c2, c3, rfl⟩, st, c4, ?_⟩
    rcases c5 with c5 | c5
    · obtain ⟨st', d1, d2⟩ := hp.2 y (List.mem_of_getElem? c2)
      rw [c4] at d1
      cases d1
      exact .inl (d2.type.symm.trans c5)
    · exact c5)
  obtain ⟨v, s1, s2, g1, g2, _⟩ := push_parts h2
  have h0 : Behind a t type key' (fun ty => ∃ i ∈ l, ∃ st, a[i]? = some st ∧ Reports a key' st ty) (Sel.initElement type key' t) := by
    have hf : (if t.type = .OpenTag then t.scope.tokenTo else t.scope.tokenFrom) = t.scope.tokenTo := if_pos o.type
    unfold Sel.initElement
    simp only [hf]
    by_cases c : type = .OpenTag
    · rw [if_pos c]
      exact ⟨o.atm, rfl, fun k e => by cases e; rfl, rfl, rfl, rfl, Nat.le_refl _, fun j x hx => ⟨x, hx, rfl, .refl _⟩, fun _ _ h => h,
        fun ty hty => by have e : ty ∈ t.triggers := hty; rw [htr] at e; cases e⟩
    · rw [if_neg c]
      exact ⟨o.atm, rfl, fun k e => by cases e; rfl, rfl, rfl, rfl, Nat.le_refl _, fun j x hx => ⟨x, hx, rfl, .refl _⟩, fun _ _ h => h,
        fun ty hty => by have e : ty ∈ t.triggers := hty; rw [htr] at e; cases e⟩
  have k1 := w.fetch m _ h0
  rw [g1] at k1
  have k2 := w.walk m m v (k1.2 v rfl) s1 k1.1
  rw [g2] at k2
  exact k2.2 rs' rfl

end TW.Path
