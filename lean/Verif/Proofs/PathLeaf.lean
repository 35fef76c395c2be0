import Verif.Proofs.PathVisit

/-!
# The tokens of outputs count
-/

namespace TW.Path

namespace Sel

/-- What a token does with its counters at a match. -/
def tick (c : Core) : Core :=
  if c.cntEnd = -1 then c
  else if 0 < c.cntEnd then
    if c.cntStart ≤ 0 then count c else { count c with cntStart := (count c).cntStart - 1 }
  else c

/-- The match is in the range. -/
def fires (c : Core) : Bool := c.cntEnd = -1 ∨ 0 < c.cntEnd ∧ c.cntStart ≤ 0

/-- Replace the core of a token. -/
def withCore (s : Sel) (i : Nat) (tk : Token) (c : Core) : Sel := { s with tokens := s.tokens.set i { tk with core := c } }

theorem tokenAt_run {s : Sel} {i : Nat} {tk : Token} (h : s.tokens[i]? = some tk) : tokenAt i s = (.ok tk, s) := by
  unfold tokenAt
  rw [h]

theorem change_run {s : Sel} {i : Nat} {tk : Token} (h : s.tokens[i]? = some tk) (g : Core → Core) :
    change i g s = (.ok (), withCore s i tk (g tk.core)) := by
  unfold change
  rw [h]
  rfl

theorem withCore_get {s : Sel} {i : Nat} {tk : Token} (h : s.tokens[i]? = some tk) (c : Core) :
    (withCore s i tk c).tokens[i]? = some { tk with core := c } := by
  have : i < s.tokens.length := (List.getElem?_eq_some_iff.1 h).1
  simp [withCore, this]

theorem withCore_set (s : Sel) (i : Nat) (tk : Token) (c d : Core) :
    withCore (withCore s i tk c) i { tk with core := c } d = withCore s i tk d := by
  simp [withCore]

theorem withCore_self {s : Sel} {i : Nat} {tk : Token} (h : s.tokens[i]? = some tk) : withCore s i tk tk.core = s := by
  unfold withCore
  have : s.tokens.set i { tk with core := tk.core } = s.tokens := by
    apply List.ext_getElem?
    intro j
    rw [List.getElem?_set]
    split
    · rename_i hij
      subst hij
      have : i < s.tokens.length := (List.getElem?_eq_some_iff.1 h).1
      rw [if_pos this, h]
    · rfl
  rw [this]

theorem change_twice {s : Sel} {i : Nat} {tk : Token} (h : s.tokens[i]? = some tk) (g g' : Core → Core) {α : Type} (f : M Sel α) :
    (do change i g; change i g'; f : M Sel α) s = f (withCore s i tk (g' (g tk.core))) := by
  rw [M.bind_ok (change_run h g), M.bind_ok (change_run (withCore_get h _) g'), withCore_set]

theorem produce_leaf {s : Sel} {i : Nat} {tk : Token} {st : State} (h : s.tokens[i]? = some tk) (hn : st.next = none) :
    produce i st s = (.ok (), withCore s i tk (tick tk.core)) := by
  have he : ∀ n, expand n none = pure () := fun n => by cases n <;> rfl
  unfold produce tick
  rw [M.bind_ok (M.get_run _), M.bind_ok (tokenAt_run h), hn]
  by_cases h1 : tk.core.cntEnd = -1
  · rw [if_pos h1, if_pos h1, he, withCore_self h]
    rfl
  · rw [if_neg h1, if_neg h1]
    by_cases h2 : 0 < tk.core.cntEnd
    · rw [if_pos h2, if_pos h2]
      by_cases h3 : tk.core.cntStart ≤ 0
      · rw [if_pos h3, if_pos h3, M.bind_ok (change_run h _), he]
        rfl
      · rw [if_neg h3, if_neg h3, M.bind_ok (change_run h _), change_run (withCore_get h _), withCore_set]
    · rw [if_neg h2, if_neg h2, withCore_self h]
      rfl

theorem emit_leaf {s : Sel} {i : Nat} {tk : Token} (h : s.tokens[i]? = some tk) (ht : tk.core.typeidx ≠ 0) :
    emit i s = (.ok (if fires tk.core then tk.core.typeidx else 0), withCore s i tk (tick tk.core)) := by
  unfold emit tick fires
  rw [M.bind_ok (tokenAt_run h), if_pos ht]
  by_cases h1 : tk.core.cntEnd = -1
  · rw [if_pos h1, if_pos h1, withCore_self h]
    simp [h1]
  · rw [if_neg h1, if_neg h1]
    by_cases h2 : 0 < tk.core.cntEnd
    · rw [if_pos h2, if_pos h2]
      by_cases h3 : tk.core.cntStart ≤ 0
      · rw [if_pos h3, if_pos h3, M.bind_ok (change_run h _)]
        simp [h2, h3]
      · rw [if_neg h3, if_neg h3, M.bind_ok (change_run h _), M.bind_ok (change_run (withCore_get h _) _), withCore_set]
        simp [h1, h3]
    · rw [if_neg h2, if_neg h2, withCore_self h]
      simp [h1, h2]


end Sel

/-- What a visit makes of the token of an output. -/
def leafCore (type : ElementType) (c : Core) : Core :=
  let d := if c.mask.matches type then (if c.typeidx ≠ 0 then Sel.tick (Sel.tick c) else Sel.tick c) else c
  if d.mask.rejects type then d.dead else d

/-- A visit of the token of an output reports. -/
def leafHit (type : ElementType) (c : Core) : Bool := c.mask.matches type && Sel.fires (Sel.tick c)

theorem tick_type (c : Core) : (Sel.tick c).typeidx = c.typeidx := by
  unfold Sel.tick Sel.count
  split
  · rfl
  · split
    · split <;> rfl
    · rfl

theorem tick_mask (c : Core) : (Sel.tick c).mask = c.mask ∨ (Sel.tick c).mask = {} := by
  unfold Sel.tick
  split
  · exact .inl rfl
  · split
    · split
      · exact (count_core c).2
      · exact (count_core c).2
    · exact .inl rfl

variable {a : Atm} {lab : List (List Edge)} {key : List Byte} {s s' : Sel}

/-- A token of an output is visited. -/
theorem match_leaf (hs : s.atm = a) {i : Nat} {t : Token} {st : State} (h : s.tokens[i]? = some t) (hst : a[t.stateidx]? = some st)
    (hn : st.next = none) (hkey : st.key = none) (hk : s.key = some key) (hi : i < s.scope.tokenTo) :
    Sel.matchToken i s = (.ok (if leafHit s.type t.core then t.core.typeidx else 0), Sel.withCore s i t (leafCore s.type t.core)) := by
  have fin : ∀ (r : Int) (c : Core), Sel.fire i s.type key s = (.ok r, Sel.withCore s i t c) →
      Sel.matchToken i s = (.ok r, Sel.withCore s i t (if c.mask.rejects s.type then c.dead else c)) := by
    intro r c hf
    unfold Sel.matchToken
    rw [M.bind_ok (M.get_run _), hk]
    simp only []
    rw [if_neg (by omega), M.bind_ok hf]
    have hg : Sel.giveUp i s.type (Sel.withCore s i t c) =
        (.ok (), Sel.withCore s i t (if c.mask.rejects s.type then c.dead else c)) := by
      unfold Sel.giveUp
      rw [M.bind_ok (Sel.tokenAt_run (Sel.withCore_get h c))]
      simp only []
      by_cases hr : c.mask.rejects s.type = true
      · rw [if_pos hr, if_pos hr, Sel.change_run (Sel.withCore_get h c), Sel.withCore_set]
        rfl
      · rw [if_neg hr, if_neg hr]
        rfl
    rw [M.bind_ok hg]
    rfl
  by_cases hm : t.core.mask.matches s.type = true
  · have hstt : Sel.stateAt t.stateidx s = (.ok st, s) := by unfold Sel.stateAt; rw [hs, hst]
    have hfo : Sel.follow i key st s = (.ok (), Sel.withCore s i t (Sel.tick t.core)) := by
      unfold Sel.follow
      rw [hkey]
      exact Sel.produce_leaf h hn
    have hfi : Sel.fire i s.type key s = Sel.emit i (Sel.withCore s i t (Sel.tick t.core)) := by
      unfold Sel.fire
      rw [M.bind_ok (Sel.tokenAt_run h), if_pos hm, M.bind_ok hstt, M.bind_ok hfo]
    by_cases h0 : t.core.typeidx = 0
    · have he : Sel.emit i (Sel.withCore s i t (Sel.tick t.core)) = (.ok 0, Sel.withCore s i t (Sel.tick t.core)) := by
        unfold Sel.emit
        rw [M.bind_ok (Sel.tokenAt_run (Sel.withCore_get h _)), if_neg (by simp only [tick_type]; simpa using h0)]
        rfl
      rw [fin _ _ (hfi.trans he), h0, ite_self]
      unfold leafCore
      simp only [hm, if_true, h0, ne_eq, not_true_eq_false, if_false]
    · have he := Sel.emit_leaf (Sel.withCore_get h (Sel.tick t.core)) (by simp only [tick_type]; exact h0)
      rw [Sel.withCore_set] at he
      rw [fin _ _ (hfi.trans he)]
      unfold leafCore leafHit
      simp only [hm, if_true, h0, ne_eq, not_false_eq_true, Bool.true_and, tick_type]
  · have hfi : Sel.fire i s.type key s = (.ok 0, Sel.withCore s i t t.core) := by
      unfold Sel.fire
      rw [M.bind_ok (Sel.tokenAt_run h), if_neg hm, Sel.withCore_self h]
      rfl
    rw [fin _ _ hfi]
    unfold leafCore leafHit
    simp only [hm, Bool.false_eq_true, if_false, Bool.false_and]

/-! ## The other tokens -/

/-- Only a token is changed. -/
def Only (i : Nat) {α : Type} (m : M Sel α) : Prop :=
  ∀ s, ∀ k, k ≠ i → k < s.tokens.length → (m s).2.tokens[k]? = s.tokens[k]? ∧ s.tokens.length ≤ (m s).2.tokens.length

theorem Only.pure {i : Nat} {α : Type} (x : α) : Only i (pure x : M Sel α) := fun _ _ _ _ => ⟨rfl, Nat.le_refl _⟩

theorem Only.bind {i : Nat} {α β : Type} {m : M Sel α} {f : α → M Sel β} (h : Only i m) (hf : ∀ x, Only i (f x)) :
    Only i (m >>= f) := by
  intro s k h1 h2
  obtain ⟨h3, h4⟩ := h s k h1 h2
  rw [M.bind_run]
  cases hm : m s with
  | mk r s1 =>
    rw [hm] at h3 h4
    cases r with
    | ok x =>
      obtain ⟨h5, h6⟩ := hf x s1 k h1 (by simp only [] at h4; omega)
      exact ⟨h5.trans h3, Nat.le_trans h4 h6⟩
    | stop e => exact ⟨h3, h4⟩

theorem Only.get (i : Nat) : Only i (M.get : M Sel Sel) := fun _ _ _ _ => ⟨rfl, Nat.le_refl _⟩

theorem Only.stop {i : Nat} {α : Type} (e : Stop) : Only i (M.stop e : M Sel α) := fun _ _ _ _ => ⟨rfl, Nat.le_refl _⟩

theorem Only.tokenAt (i j : Nat) : Only i (Sel.tokenAt j) := by
  intro s k _ _
  unfold Sel.tokenAt
  split <;> exact ⟨rfl, Nat.le_refl _⟩

theorem Only.stateAt (i j : Nat) : Only i (Sel.stateAt j) := by
  intro s k _ _
  unfold Sel.stateAt
  split <;> exact ⟨rfl, Nat.le_refl _⟩

theorem Only.change (i : Nat) (g : Core → Core) : Only i (Sel.change i g) := by
  intro s k h _
  unfold Sel.change
  split
  · exact ⟨List.getElem?_set_ne (fun e => h e.symm), by simp⟩
  · exact ⟨rfl, Nat.le_refl _⟩

theorem Only.activate (i : Nat) (st : State) (j : Nat) : Only i (M.modify (Sel.activate st j)) := by
  intro s k _ hk
  show (Sel.activate st j s).tokens[k]? = _ ∧ _ ≤ (Sel.activate st j s).tokens.length
  unfold Sel.activate
  split
  · exact ⟨rfl, Nat.le_refl _⟩
  · cases st.core.follow
    · exact ⟨List.getElem?_append_left hk, by simp⟩
    · exact ⟨List.getElem?_append_left hk, by simp⟩

theorem Only.expand (i : Nat) : ∀ (n : Nat) (h : Option Nat), Only i (Sel.expand n h) := by
  intro n
  induction n with
  | zero =>
    intro h
    unfold Sel.expand
    cases h
    · exact .pure _
    · exact .stop _
  | succ n ih =>
    intro h
    unfold Sel.expand
    cases h with
    | none => exact .pure _
    | some j => exact (Only.stateAt i j).bind fun st => (Only.activate i st j).bind fun _ => ih st.link

theorem Only.produce (i : Nat) (st : State) : Only i (Sel.produce i st) := by
  unfold Sel.produce
  refine (Only.get i).bind fun s => (Only.tokenAt i i).bind fun t => ?_
  split
  · exact Only.expand i _ _
  · split
    · refine (Only.change i _).bind fun _ => ?_
      split
      · exact Only.expand i _ _
      · exact .change i _
    · exact .pure _

theorem Only.emit (i : Nat) : Only i (Sel.emit i) := by
  unfold Sel.emit
  refine (Only.tokenAt i i).bind fun t => ?_
  split
  · split
    · exact .pure _
    · split
      · refine (Only.change i _).bind fun _ => ?_
        split
        · exact .pure _
        · exact (Only.change i _).bind fun _ => .pure _
      · exact .pure _
  · exact .pure _

theorem Only.match (i : Nat) : Only i (Sel.matchToken i) := by
  unfold Sel.matchToken
  refine (Only.get i).bind fun s => ?_
  split
  · exact .pure _
  · split
    · exact .pure _
    · refine Only.bind ?_ fun _ => Only.bind ?_ fun _ => .pure _
      · unfold Sel.fire
        refine (Only.tokenAt i i).bind fun t => ?_
        split
        · refine (Only.stateAt i _).bind fun st => Only.bind ?_ fun _ => .emit i
          unfold Sel.follow
          split
          · split
            · exact .produce i st
            · exact .pure _
          · exact .produce i st
        · exact .pure _
      · unfold Sel.giveUp
        refine (Only.tokenAt i i).bind fun t => ?_
        split
        · exact .change i _
        · exact .pure _

/-- The token is of an output with the type, and reports at a visit. -/
def hits (a : Atm) (ty : Int) (toks : List Token) (type : ElementType) (i : Nat) : Bool :=
  match toks[i]? with
  | some t => decide (typ a t.stateidx = ty) && leafHit type t.core
  | none => false

/-- Visiting tokens once. -/
theorem Ready.leaves {ty : Int} (h0 : ty ≠ 0) (vs : List Nat) : ∀ {s : Sel}, Ready a lab key s → (∀ i ∈ vs, i < s.scope.tokenTo) → vs.Nodup →
    ∀ {rs s'}, Sel.visitAll vs s = (.ok rs, s') →
      (∀ k, k ∉ vs → k < s.tokens.length → s'.tokens[k]? = s.tokens[k]?) ∧
      (∀ k ∈ vs, ∀ (t : Token) (st : State), s.tokens[k]? = some t → a[t.stateidx]? = some st → st.next = none →
        s'.tokens[k]? = some { t with core := leafCore s.type t.core }) ∧
      rs.count ty = vs.countP (hits a ty s.tokens s.type) := by
  induction vs with
  | nil =>
    intro s h _ _ rs s' hv
    cases hv
    exact ⟨fun _ _ _ => rfl, fun _ hk => (List.not_mem_nil hk).elim, rfl⟩
  | cons i vs ih =>
    intro s h hv nd rs s' hr
    obtain ⟨nd1, nd2⟩ := List.nodup_cons.1 nd
    have hi := hv i (List.mem_cons_self ..)
    obtain ⟨s1, r, X, t, st, l, t1, h1, h2, h3, h4, h5, h6, h7, h8, h9, h10, -⟩ := h.visit hi
    have g := h2.iter (s1.iter + 1)
    unfold Sel.visitAll at hr
    rw [M.bind_ok h1, M.bind_ok (M.modify_run _ _)] at hr
    have oth : ∀ k, k ≠ i → k < s.tokens.length → s1.tokens[k]? = s.tokens[k]? := by
      intro k e1 e2
      have := (Only.match i s k e1 e2).1
      rw [h1] at this
      exact this
    have hlen := h2.len
    have htl : i < s.tokens.length := (List.getElem?_eq_some_iff.1 h4).1
    cases hv2 : Sel.visitAll vs { s1 with iter := s1.iter + 1 } with
    | mk q s3 =>
      cases q with
      | stop er => rw [M.bind_stop hv2] at hr; cases hr
      | ok rs' =>
        rw [M.bind_ok hv2] at hr
        cases hr
        obtain ⟨e1, e2, e3⟩ := ih (s := { s1 with iter := s1.iter + 1 }) (h.grew g)
          (fun k hk => by rw [g.to]; exact hv k (List.mem_cons_of_mem _ hk)) nd2 hv2
        have leaf : st.next = none → s1 = Sel.withCore s i t (leafCore s.type t.core) ∧
            r = if leafHit s.type t.core then t.core.typeidx else 0 := by
          intro hn
          have := match_leaf h.atm h4 h5 hn (h.ok.plain _ st h5 hn) h.key hi
          rw [h1] at this
          injection this with this1 this2
          injection this1 with this1
          exact ⟨this2, this1⟩
        have hty : s1.type = s.type := h2.type
        refine ⟨fun k k1 k2 => ?_, fun k hk t' st' k1 k2 k3 => ?_, ?_⟩
        · rw [e1 k (fun hk => k1 (List.mem_cons_of_mem _ hk)) (by show k < s1.tokens.length; omega)]
          exact oth k (fun hk => k1 (hk ▸ List.mem_cons_self ..)) k2
        · rcases List.mem_cons.1 hk with rfl | hk
          · rw [h4] at k1
            cases k1
            rw [h5] at k2
            cases k2
            rw [e1 k nd1 (by show k < s1.tokens.length; omega)]
            show s1.tokens[k]? = _
            rw [(leaf k3).1]
            exact Sel.withCore_get h4 _
          · have hki : k ≠ i := fun e => nd1 (e ▸ hk)
            have hkl : k < s.tokens.length := (List.getElem?_eq_some_iff.1 k1).1
            have := e2 k hk t' st' (by show s1.tokens[k]? = _; rw [oth k hki hkl]; exact k1) k2 k3
            rw [this]
            show some { t' with core := leafCore s1.type t'.core } = _
            rw [hty]
        · rw [List.count_cons, e3, List.countP_cons]
          congr 1
          · apply List.countP_congr
            intro k hk
            have hki : k ≠ i := fun e => nd1 (e ▸ hk)
            have hkl : k < s.tokens.length := by
              have := hv k (List.mem_cons_of_mem _ hk)
              have := h.to
              omega
            unfold hits
            show (match s1.tokens[k]? with
              | some t => decide (typ a t.stateidx = ty) && leafHit s1.type t.core
              | none => false) = true ↔ _
            rw [oth k hki hkl, hty]
          · unfold hits
            rw [h4]
            have hst : typ a t.stateidx = st.core.typeidx := by unfold typ; rw [h5]
            simp only [hst]
            by_cases e : st.core.typeidx = ty
            · have hn : st.next = none := by
                cases hn : st.next with
                | none => rfl
                | some j => exact (h0 (e.symm.trans (h.ok.edge _ st j h5 hn).1)).elim
              have hte : t.core.typeidx = ty := by
                obtain ⟨st', f1, f2, -⟩ := h.tok t (List.mem_of_getElem? h4)
                rw [h5] at f1
                cases f1
                exact f2.trans e
              rw [(leaf hn).2, hte]
              simp only [e, decide_true, Bool.true_and]
              by_cases hh : leafHit s.type t.core = true
              · simp [hh]
              · simp only [hh, Bool.false_eq_true, if_false]
                rw [if_neg]
                simpa using fun h => h0 h.symm
            · simp only [e, decide_false, Bool.false_and, Bool.false_eq_true, if_false]
              rw [if_neg]
              intro hx
              have hx : r = ty := by simpa using hx
              exact e ((h10 (by rw [hx]; exact h0)).1.symm.trans hx)

end TW.Path
