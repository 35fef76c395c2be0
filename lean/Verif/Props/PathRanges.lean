import Verif.Props.Path
import Verif.Proofs.PathRanged

/-!
# Property C45: index ranges
-/

namespace TW

open Spec Spec.Path TW.Path

open Path.Sel

/-- The automaton for `/r()` with a range. -/
def rangeAtm (r : List Byte) (ty s t : Int) : Atm :=
  [{ link := some 1 }, { core := { mask := ({} : Mask).seekop .OpenTag }, key := some r, next := some 2 }, { link := some 3 },
    { core := { mask := ({} : Mask).seekop .Content, typeidx := ty, cntStart := s, cntEnd := t } }]

/-- Its selector after an open tag `r`. -/
def rangeSel (r : List Byte) (ty s t : Int) (core : Core) (type : ElementType) (key : Option (List Byte)) (fr to iter : Nat) : Sel where
  atm := rangeAtm r ty s t
  scopestk := [{ mask := ({} : Mask).seekop .OpenTag, tokenTo := 2 }]
  tokens := [{ core := {}, stateidx := 0 }, { core := { mask := ({} : Mask).seekop .OpenTag }, stateidx := 1 },
    { core := {}, stateidx := 2 }, { core := core, stateidx := 3 }]
  type := type
  key := key
  scope := { mask := { pos := 9216, neg := 0 }, tokenFrom := fr, tokenTo := to }
  iter := iter

theorem rangeSel_get (r : List Byte) (ty s t : Int) (core : Core) (type : ElementType) (key : Option (List Byte)) (fr to iter : Nat) :
    (rangeSel r ty s t core type key fr to iter).tokens[3]? = some { core := core, stateidx := 3 } := rfl

theorem rangeSel_set (r : List Byte) (ty s t : Int) (core c : Core) (type : ElementType) (key : Option (List Byte)) (fr to iter : Nat) :
    withCore (rangeSel r ty s t core type key fr to iter) 3 { core := core, stateidx := 3 } c =
      rangeSel r ty s t c type key fr to iter := rfl

/-- The token of the output at a content. -/
theorem RangeInv.match {r : List Byte} {ty s t : Int} {k : Nat} {c : Core} (h : RangeInv ty s t k c) (hty : ty ≠ 0) (v : List Byte)
    (fr iter : Nat) :
    matchToken 3 (rangeSel r ty s t c .Content (some v) fr 4 iter) =
      (.ok (if fires (tick c) then ty else 0), rangeSel r ty s t (tick (tick c)) .Content (some v) fr 4 iter) := by
  obtain ⟨-, h1, h2, h3⟩ := h.next
  have hg : ∀ d : Core, d.mask.neg = 0 → giveUp 3 .Content (rangeSel r ty s t d .Content (some v) fr 4 iter) =
      (.ok (), rangeSel r ty s t d .Content (some v) fr 4 iter) := by
    intro d hd
    have : d.mask.rejects .Content = false := by unfold Mask.rejects; rw [hd]; exact Nat.zero_testBit _
    unfold giveUp
    rw [M.bind_ok (tokenAt_run (rangeSel_get ..))]
    simp only [this, Bool.false_eq_true, if_false]
    rfl
  have hf : fire 3 .Content v (rangeSel r ty s t c .Content (some v) fr 4 iter) =
      (.ok (if fires (tick c) then ty else 0), rangeSel r ty s t (tick (tick c)) .Content (some v) fr 4 iter) := by
    unfold fire
    rw [M.bind_ok (tokenAt_run (rangeSel_get ..))]
    simp only []
    by_cases hm : c.mask.matches .Content = true
    · rw [if_pos hm]
      have hs : stateAt 3 (rangeSel r ty s t c .Content (some v) fr 4 iter) =
          (.ok { core := { mask := ({} : Mask).seekop .Content, typeidx := ty, cntStart := s, cntEnd := t } },
            rangeSel r ty s t c .Content (some v) fr 4 iter) := rfl
      rw [M.bind_ok hs]
      unfold follow
      simp only []
      rw [M.bind_ok (produce_leaf (rangeSel_get ..) rfl), rangeSel_set, emit_leaf (rangeSel_get ..) (by simp only []; rw [h2]; exact hty), rangeSel_set]
      simp only [h2]
    · rw [if_neg hm]
      obtain ⟨-, -, ⟨h5, h6⟩ | ⟨-, -, h7, -⟩⟩ := h
      · have e : tick c = c := by
          unfold tick
          rw [if_neg (by omega), if_neg (by omega)]
        have f : fires c = false := by
          simp only [fires, h6, decide_eq_false_iff_not]
          omega
        rw [e, e, f]
        rfl
      · exfalso
        rw [h7] at hm
        exact hm (by decide)
  unfold matchToken
  rw [M.bind_ok (M.get_run _)]
  show (if (4 : Nat) ≤ 3 then pure 0 else _ : M Sel Int) _ = _
  rw [if_neg (by decide)]
  show (do let rt ← fire 3 .Content v; giveUp 3 .Content; pure rt : M Sel Int) _ = _
  rw [M.bind_ok hf, M.bind_ok (hg _ h3)]
  rfl

/-- The results at a content. -/
theorem RangeInv.push {r : List Byte} {ty s t : Int} {k : Nat} {c : Core} (h : RangeInv ty s t k c) (hty : ty ≠ 0) (v : List Byte)
    {type : ElementType} {fr to iter : Nat} (hi : type = .OpenTag ∧ to = 2 ∨ type = .Content ∧ fr = 2) {m : Nat} (hm : 10 ≤ m) :
    Sel.push m false .Content v (rangeSel r ty s t c type none fr to iter) =
      (.ok (if s ≤ 2 * k + 1 ∧ 2 * k + 1 < t then [ty] else []), rangeSel r ty s t (tick (tick c)) .Content none 2 4 4) := by
  obtain ⟨m, rfl⟩ : ∃ j, m = j + 10 := ⟨m - 10, by omega⟩
  have h0 : initElement .Content v (rangeSel r ty s t c type none fr to iter) = rangeSel r ty s t c .Content (some v) 2 4 2 := by
    rcases hi with ⟨rfl, rfl⟩ | ⟨rfl, rfl⟩ <;> rfl
  have h2 : matchToken 2 (rangeSel r ty s t c .Content (some v) 2 4 2) = (.ok 0, rangeSel r ty s t c .Content (some v) 2 4 2) := by
    have ht : tokenAt 2 (rangeSel r ty s t c .Content (some v) 2 4 2) =
        (.ok { core := {}, stateidx := 2 }, rangeSel r ty s t c .Content (some v) 2 4 2) := rfl
    unfold matchToken
    rw [M.bind_ok (M.get_run _)]
    show (do let rt ← fire 2 .Content v; giveUp 2 .Content; pure rt : M Sel Int) _ = _
    have hf : fire 2 .Content v (rangeSel r ty s t c .Content (some v) 2 4 2) =
        (.ok 0, rangeSel r ty s t c .Content (some v) 2 4 2) := by
      unfold fire
      rw [M.bind_ok ht, if_neg (by decide)]
      rfl
    have hg : giveUp 2 .Content (rangeSel r ty s t c .Content (some v) 2 4 2) =
        (.ok (), rangeSel r ty s t c .Content (some v) 2 4 2) := by
      unfold giveUp
      rw [M.bind_ok ht, if_neg (by decide)]
      rfl
    rw [M.bind_ok hf, M.bind_ok hg]
    rfl
  have hend : ∀ n d, fetchLoop (n + 1) (rangeSel r ty s t d .Content (some v) 2 4 4) =
      (.ok 0, rangeSel r ty s t d .Content none 2 4 4) := fun n d => rfl
  have hmask : ∀ d i, (rangeSel r ty s t d .Content (some v) 2 4 i).scope.mask.matches
      (rangeSel r ty s t d .Content (some v) 2 4 i).type = true := fun d i => by
    show (({ pos := 9216, neg := 0 } : Mask).matches .Content) = true
    decide
  have h3 : fetchLoop (m + 9) (rangeSel r ty s t c .Content (some v) 2 4 3) =
      if fires (tick c) = true then (.ok ty, rangeSel r ty s t (tick (tick c)) .Content (some v) 2 4 4)
      else (.ok 0, rangeSel r ty s t (tick (tick c)) .Content none 2 4 4) := by
    unfold fetchLoop
    rw [M.bind_ok (M.get_run _), if_pos (show (rangeSel r ty s t c .Content (some v) 2 4 3).iter < (rangeSel r ty s t c .Content (some v) 2 4 3).scope.tokenTo from (by decide : 3 < 4))]
    rw [show (rangeSel r ty s t c .Content (some v) 2 4 3).iter = 3 from rfl, M.bind_ok (h.match hty v 2 3), M.bind_ok (M.modify_run _ _)]
    by_cases hf : fires (tick c) = true
    · rw [if_pos hf, if_pos hf, if_neg hty]
      rfl
    · rw [if_neg hf, if_neg hf, if_pos rfl]
      exact hend _ _
  have h4 : fetch (m + 10) (rangeSel r ty s t c .Content (some v) 2 4 2) =
      if fires (tick c) = true then (.ok ty, rangeSel r ty s t (tick (tick c)) .Content (some v) 2 4 4)
      else (.ok 0, rangeSel r ty s t (tick (tick c)) .Content none 2 4 4) := by
    unfold fetch
    rw [M.bind_ok (M.get_run _), if_pos (hmask c 2)]
    unfold fetchLoop
    rw [M.bind_ok (M.get_run _), if_pos (show (rangeSel r ty s t c .Content (some v) 2 4 2).iter < (rangeSel r ty s t c .Content (some v) 2 4 2).scope.tokenTo from (by decide : 2 < 4))]
    rw [show (rangeSel r ty s t c .Content (some v) 2 4 2).iter = 2 from rfl, M.bind_ok h2, M.bind_ok (M.modify_run _ _), if_pos rfl]
    exact h3
  have hclose : ∀ d, closeElement (rangeSel r ty s t d .Content none 2 4 4) = rangeSel r ty s t d .Content none 2 4 4 := fun d => rfl
  unfold Sel.push
  rw [M.bind_ok (M.modify_run _ _), h0]
  by_cases hf : fires (tick c) = true
  · rw [if_pos hf] at h4
    rw [if_pos (h.next.2.1.1 hf), M.bind_ok h4]
    have h5 : fetch (m + 10) (rangeSel r ty s t (tick (tick c)) .Content (some v) 2 4 4) =
        (.ok 0, rangeSel r ty s t (tick (tick c)) .Content none 2 4 4) := by
      unfold fetch
      rw [M.bind_ok (M.get_run _), if_pos (hmask _ 4)]
      exact hend _ _
    have h6 : walk (m + 10) false (m + 10) ty (rangeSel r ty s t (tick (tick c)) .Content (some v) 2 4 4) =
        (.ok [ty], rangeSel r ty s t (tick (tick c)) .Content none 2 4 4) := by
      unfold walk
      rw [if_neg hty, M.bind_ok h5]
      rfl
    rw [M.bind_ok h6, M.bind_ok (M.modify_run _ _), hclose]
    rfl
  · rw [if_neg hf] at h4
    rw [if_neg (fun h' => hf (h.next.2.1.2 h')), M.bind_ok h4]
    rfl

theorem range_feed {r : List Byte} {ty s t : Int} (hty : ty ≠ 0) (vs : List (List Byte)) : ∀ {k : Nat} {c : Core}, RangeInv ty s t k c →
    ∀ {type : ElementType} {fr to iter : Nat}, (type = .OpenTag ∧ to = 2 ∨ type = .Content ∧ fr = 2) →
    ∃ s', ∀ m, 10 ≤ m → Sel.feed m (vs.map fun v => (.Content, v)) (rangeSel r ty s t c type none fr to iter) =
      (.ok ((List.range' k vs.length).map fun k : Nat => if s ≤ 2 * (k : Int) + 1 ∧ 2 * (k : Int) + 1 < t then [ty] else []), s') := by
  induction vs with
  | nil => intro k c h type fr to iter hi; exact ⟨_, fun m hm => rfl⟩
  | cons v vs ih =>
    intro k c h type fr to iter hi
    obtain ⟨s', h1⟩ := ih h.next.1 (type := .Content) (fr := 2) (to := 4) (iter := 4) (.inr ⟨rfl, rfl⟩)
    refine ⟨s', fun m hm => ?_⟩
    rw [List.map_cons]
    unfold Sel.feed
    rw [M.bind_ok (h.push hty v hi hm), M.bind_ok (h1 m hm)]
    rfl

/-- The bounds set by a call. -/
def rangeOf : PElem.Call → Option (Int × Int)
  | .to b => some (0, b)
  | .from' a => some (a, 2147483646)
  | .range a b => some (a, b)
  | .index i => some (i, i)
  | _ => none

theorem range_call {e : Enc} {n : Nat} {c : PElem.Call} {a b : Int} (hc : rangeOf c = some (a, b)) (hb : 0 ≤ b) (at' : Atm) :
    PElem.call e n { stateidx := 2, print := ({} : Mask).seekop .Content } c at' =
        (.ok { stateidx := 2, print := ({} : Mask).seekop .Content, start := a, stop := b + 1 }, at') := by
  cases c with
  | to i =>
    cases hc
    show (Res.ok (PElem.to b _), at') = _
    simp only [PElem.to, PElem.doCount, PElem.doRange, if_true, if_pos hb]
  | from' i =>
    cases hc
    show (Res.ok (PElem.from' a _), at') = _
    simp only [PElem.from', PElem.doStart, PElem.doRange, if_true, Int.reduceAdd]
  | range i j =>
    cases hc
    show (Res.ok (PElem.range a b _), at') = _
    simp only [PElem.range, PElem.doRange, if_true, if_pos hb]
  | index i =>
    cases hc
    rfl
  | _ => cases hc

/-- The selector at the open tag. -/
def openSel (r : List Byte) (ty s t : Int) (tks : List Token) (mask : Mask) (key : Option (List Byte)) (iter : Nat) : Sel where
  atm := rangeAtm r ty s t
  scopestk := [{ mask := ({} : Mask).seekop .OpenTag, tokenTo := 2 }]
  tokens := [{ core := {}, stateidx := 0 }, { core := { mask := ({} : Mask).seekop .OpenTag }, stateidx := 1 }] ++ tks
  type := .OpenTag
  key := key
  scope := { mask := mask, tokenFrom := 0, tokenTo := 2 }
  iter := iter

theorem open_init (r : List Byte) (ty s t : Int) :
    initElement .OpenTag r ({ atm := rangeAtm r ty s t, tokens := [{ core := {}, stateidx := 0 }, { core := { mask := ({} : Mask).seekop .OpenTag }, stateidx := 1 }], scope := { mask := ({} : Mask).seekop .OpenTag } } : Sel) =
      openSel r ty s t [] { pos := 1024 } (some r) 0 := by
  have : ({} : Mask).match .OpenTag = { pos := 1024 } := by decide
  unfold openSel
  rw [← this]
  rfl

theorem open_first (r : List Byte) (ty s t : Int) :
    matchToken 0 (openSel r ty s t [] { pos := 1024 } (some r) 0) = (.ok 0, openSel r ty s t [] { pos := 1024 } (some r) 0) := by
  simp [bind, pure, M.bind, M.pure, matchToken, fire, giveUp, tokenAt, M.get, Mask.matches, Mask.rejects, Nat.testBit, openSel]

theorem activate_plain {st : State} (h : st.core.mask.empty = false ∨ st.core.typeidx = 0) (hf : st.core.follow = false) (i : Nat) (s : Sel) :
    activate st i s = { s with scope := { s.scope with mask := s.scope.mask.join st.core.mask }, tokens := s.tokens ++ [{ core := st.core, stateidx := i }] } := by
  unfold activate
  simp only []
  rw [if_neg, hf]
  · rfl
  · rintro ⟨h1, h2⟩
    rcases h with h | h
    · rw [h1] at h; cases h
    · exact h2 h

theorem open_expand (r : List Byte) (ty s t : Int) :
    expand 5 (some 2) (openSel r ty s t [] { pos := 1024 } (some r) 1) =
      (.ok (), openSel r ty s t [{ core := {}, stateidx := 2 }, { core := { mask := ({} : Mask).seekop .Content, typeidx := ty, cntStart := s, cntEnd := t }, stateidx := 3 }] { pos := 9216 } (some r) 1) := by
  have h1 : Sel.stateAt 2 (openSel r ty s t [] { pos := 1024 } (some r) 1) =
      (.ok { link := some 3 }, openSel r ty s t [] { pos := 1024 } (some r) 1) := rfl
  have h2 : activate { link := some 3 } 2 (openSel r ty s t [] { pos := 1024 } (some r) 1) =
      openSel r ty s t [{ core := {}, stateidx := 2 }] { pos := 1024 } (some r) 1 := by
    have e : ({ pos := 1024 } : Mask) = ({ pos := 1024 } : Mask).join {} := by decide
    rw [activate_plain (.inr rfl) rfl]
    show openSel r ty s t [{ core := {}, stateidx := 2 }] (({ pos := 1024 } : Mask).join {}) (some r) 1 = _
    rw [← e]
  have h3 : Sel.stateAt 3 (openSel r ty s t [{ core := {}, stateidx := 2 }] { pos := 1024 } (some r) 1) =
      (.ok { core := { mask := ({} : Mask).seekop .Content, typeidx := ty, cntStart := s, cntEnd := t } },
        openSel r ty s t [{ core := {}, stateidx := 2 }] { pos := 1024 } (some r) 1) := rfl
  have h4 : activate { core := { mask := ({} : Mask).seekop .Content, typeidx := ty, cntStart := s, cntEnd := t } } 3
      (openSel r ty s t [{ core := {}, stateidx := 2 }] { pos := 1024 } (some r) 1) =
      openSel r ty s t [{ core := {}, stateidx := 2 }, { core := { mask := ({} : Mask).seekop .Content, typeidx := ty, cntStart := s, cntEnd := t }, stateidx := 3 }]
        { pos := 9216 } (some r) 1 := by
    have e : ({ pos := 9216 } : Mask) = ({ pos := 1024 } : Mask).join (({} : Mask).seekop .Content) := by decide
    rw [activate_plain (.inl (by show (({} : Mask).seekop .Content).empty = false; decide)) rfl, e]
    rfl
  unfold expand
  rw [M.bind_ok h1, M.bind_ok (M.modify_run _ _), h2]
  unfold expand
  rw [M.bind_ok h3, M.bind_ok (M.modify_run _ _), h4]
  rfl

theorem open_second (r : List Byte) (ty s t : Int) :
    matchToken 1 (openSel r ty s t [] { pos := 1024 } (some r) 1) =
      (.ok 0, openSel r ty s t [{ core := {}, stateidx := 2 }, { core := { mask := ({} : Mask).seekop .Content, typeidx := ty, cntStart := s, cntEnd := t }, stateidx := 3 }] { pos := 9216 } (some r) 1) := by
  have ht : ∀ tks m, tokenAt 1 (openSel r ty s t tks m (some r) 1) =
      (.ok { core := { mask := ({} : Mask).seekop .OpenTag }, stateidx := 1 }, openSel r ty s t tks m (some r) 1) := fun _ _ => rfl
  have hp : produce 1 { core := { mask := ({} : Mask).seekop .OpenTag }, key := some r, next := some 2 }
      (openSel r ty s t [] { pos := 1024 } (some r) 1) =
      (.ok (), openSel r ty s t [{ core := {}, stateidx := 2 }, { core := { mask := ({} : Mask).seekop .Content, typeidx := ty, cntStart := s, cntEnd := t }, stateidx := 3 }] { pos := 9216 } (some r) 1) := by
    unfold produce
    rw [M.bind_ok (M.get_run _), M.bind_ok (ht _ _), if_pos rfl]
    exact open_expand r ty s t
  have hs : Sel.stateAt 1 (openSel r ty s t [] { pos := 1024 } (some r) 1) =
      (.ok { core := { mask := ({} : Mask).seekop .OpenTag }, key := some r, next := some 2 }, openSel r ty s t [] { pos := 1024 } (some r) 1) := rfl
  have hf : fire 1 .OpenTag r (openSel r ty s t [] { pos := 1024 } (some r) 1) =
      (.ok 0, openSel r ty s t [{ core := {}, stateidx := 2 }, { core := { mask := ({} : Mask).seekop .Content, typeidx := ty, cntStart := s, cntEnd := t }, stateidx := 3 }] { pos := 9216 } (some r) 1) := by
    unfold fire
    rw [M.bind_ok (ht _ _), if_pos (by decide), M.bind_ok hs]
    unfold follow
    simp only [if_true]
    rw [M.bind_ok hp]
    unfold emit
    rw [M.bind_ok (ht _ _)]
    rfl
  unfold matchToken
  rw [M.bind_ok (M.get_run _)]
  show (do let rt ← fire 1 .OpenTag r; giveUp 1 .OpenTag; pure rt : M Sel Int) _ = _
  rw [M.bind_ok hf]
  have hg : ∀ tks m, giveUp 1 .OpenTag (openSel r ty s t tks m (some r) 1) = (.ok (), openSel r ty s t tks m (some r) 1) := by
    intro tks m
    unfold giveUp
    rw [M.bind_ok (ht _ _), if_neg (by decide)]
    rfl
  rw [M.bind_ok (hg _ _)]
  rfl

theorem range_open (r : List Byte) (ty s t : Int) {m : Nat} (hm : 10 ≤ m) :
    Sel.push m false .OpenTag r ({ atm := rangeAtm r ty s t, tokens := [{ core := {}, stateidx := 0 }, { core := { mask := ({} : Mask).seekop .OpenTag }, stateidx := 1 }], scope := { mask := ({} : Mask).seekop .OpenTag } } : Sel) =
      (.ok [], rangeSel r ty s t { mask := ({} : Mask).seekop .Content, typeidx := ty, cntStart := s, cntEnd := t }
        .OpenTag none 0 2 2) := by
  obtain ⟨m, rfl⟩ : ∃ j, m = j + 10 := ⟨m - 10, by omega⟩
  unfold Sel.push
  rw [M.bind_ok (M.modify_run _ _), open_init]
  have h1 : fetch (m + 10) (openSel r ty s t [] { pos := 1024 } (some r) 0) =
      (.ok 0, rangeSel r ty s t { mask := ({} : Mask).seekop .Content, typeidx := ty, cntStart := s, cntEnd := t } .OpenTag none 0 2 2) := by
    unfold fetch
    have hm : (openSel r ty s t [] { pos := 1024 } (some r) 0).scope.mask.matches (openSel r ty s t [] { pos := 1024 } (some r) 0).type = true :=
      show ({ pos := 1024 } : Mask).matches .OpenTag = true by decide
    rw [M.bind_ok (M.get_run _), if_pos hm]
    unfold fetchLoop
    rw [M.bind_ok (M.get_run _), if_pos (show (openSel r ty s t [] { pos := 1024 } (some r) 0).iter <
      (openSel r ty s t [] { pos := 1024 } (some r) 0).scope.tokenTo from (by decide : 0 < 2)), show (openSel r ty s t [] { pos := 1024 } (some r) 0).iter = 0 from rfl,
      M.bind_ok (open_first r ty s t), M.bind_ok (M.modify_run _ _), if_pos rfl]
    show fetchLoop (m + 9) (openSel r ty s t [] { pos := 1024 } (some r) 1) = _
    unfold fetchLoop
    rw [M.bind_ok (M.get_run _), if_pos (show (openSel r ty s t [] { pos := 1024 } (some r) 1).iter <
      (openSel r ty s t [] { pos := 1024 } (some r) 1).scope.tokenTo from (by decide : 1 < 2)), show (openSel r ty s t [] { pos := 1024 } (some r) 1).iter = 1 from rfl,
      M.bind_ok (open_second r ty s t), M.bind_ok (M.modify_run _ _), if_pos rfl]
    rfl
  rw [M.bind_ok h1]
  rfl

theorem range_new (r : List Byte) (ty s t : Int) : Sel.mk' (rangeAtm r ty s t) = .ok ({ atm := rangeAtm r ty s t, tokens := [{ core := {}, stateidx := 0 }, { core := { mask := ({} : Mask).seekop .OpenTag }, stateidx := 1 }], scope := { mask := ({} : Mask).seekop .OpenTag } } : Sel) := by
  have h1 : Sel.stateAt 0 ({ atm := rangeAtm r ty s t } : Sel) = (.ok { link := some 1 }, { atm := rangeAtm r ty s t }) := rfl
  have h2 : activate { link := some 1 } 0 ({ atm := rangeAtm r ty s t } : Sel) =
      { atm := rangeAtm r ty s t, tokens := [{ core := {}, stateidx := 0 }] } := by
    have e : ({} : Mask).join {} = {} := by decide
    rw [activate_plain (.inr rfl) rfl]
    show ({ atm := _, tokens := _, scope := { mask := ({} : Mask).join {} } } : Sel) = _
    rw [e]
    rfl
  have h3 : Sel.stateAt 1 ({ atm := rangeAtm r ty s t, tokens := [{ core := {}, stateidx := 0 }] } : Sel) =
      (.ok { core := { mask := ({} : Mask).seekop .OpenTag }, key := some r, next := some 2 },
        { atm := rangeAtm r ty s t, tokens := [{ core := {}, stateidx := 0 }] }) := rfl
  have h4 : activate { core := { mask := ({} : Mask).seekop .OpenTag }, key := some r, next := some 2 } 1
      ({ atm := rangeAtm r ty s t, tokens := [{ core := {}, stateidx := 0 }] } : Sel) =
      { atm := rangeAtm r ty s t, tokens := [{ core := {}, stateidx := 0 }, { core := { mask := ({} : Mask).seekop .OpenTag }, stateidx := 1 }], scope := { mask := ({} : Mask).seekop .OpenTag } } := by
    have e : ({} : Mask).join (({} : Mask).seekop .OpenTag) = ({} : Mask).seekop .OpenTag := by decide
    rw [activate_plain (.inr rfl) rfl]
    show ({ atm := _, tokens := _, scope := { mask := ({} : Mask).join (({} : Mask).seekop .OpenTag) } } : Sel) = _
    rw [e]
    rfl
  have h5 : expand 5 (some 0) ({ atm := rangeAtm r ty s t } : Sel) = (.ok (), { atm := rangeAtm r ty s t, tokens := [{ core := {}, stateidx := 0 }, { core := { mask := ({} : Mask).seekop .OpenTag }, stateidx := 1 }], scope := { mask := ({} : Mask).seekop .OpenTag } }) := by
    unfold expand
    rw [M.bind_ok h1, M.bind_ok (M.modify_run _ _), h2]
    unfold expand
    rw [M.bind_ok h3, M.bind_ok (M.modify_run _ _), h4]
    rfl
  unfold Sel.mk'
  rw [show (if 0 < List.length (rangeAtm r ty s t) then some 0 else none : Option Nat) = some 0 from rfl,
    show List.length (rangeAtm r ty s t) + 1 = 5 from rfl, h5]

/-- The contents reported for an output with a range. -/
theorem range_select {e : Enc} (he : ByteSet e) {n : Nat} (hn : 1024 < n) {r : List Byte} (hr : Name e r) {ty : Int} (hty : ty ≠ 0)
    {cs : List PElem.Call} {a b : Int} (ha : 0 ≤ a) (hb : 0 ≤ b)
    (h4 : ∀ at', PElem.calls e n { stateidx := 2, print := ({} : Mask).seekop .Content } cs at' =
      (.ok { stateidx := 2, print := ({} : Mask).seekop .Content, start := a, stop := b + 1 }, at')) (vs : List (List Byte)) :
    Selects e n [.tag (some r) :: .content :: cs ++ [.assign ty]] ((.OpenTag, r) :: vs.map fun v => (.Content, v))
      ([] :: (List.range vs.length).map fun k : Nat => if a ≤ 2 * (k : Int) + 1 ∧ 2 * (k : Int) + 1 ≤ b then [ty] else []) := by
  have hk := name_self he hn (name := some r) (fun nm h => by cases h; exact hr) r rfl
  have h1 : build e n [.tag (some r) :: .content :: cs ++ [.assign ty]] [] = (.ok (), rangeAtm r ty a (b + 1)) := by
    have h2 : PElem.call e n {} (.tag (some r)) [] = (.ok { stateidx := 2 },
        [{ link := some 1 }, { core := { mask := ({} : Mask).seekop .OpenTag }, key := some r, next := some 2 }, {}]) := by
      unfold PElem.call PElem.doSelect
      simp only [hk.1]
      rfl
    have h3 : ∀ at', PElem.call e n { stateidx := 2 } .content at' = (.ok { stateidx := 2, print := ({} : Mask).seekop .Content }, at') :=
      fun _ => rfl
    have h5 : PElem.call e n { stateidx := 2, print := ({} : Mask).seekop .Content, start := a, stop := b + 1 } (.assign ty)
        [{ link := some 1 }, { core := { mask := ({} : Mask).seekop .OpenTag }, key := some r, next := some 2 }, {}] =
        (.ok { stateidx := 3, print := ({} : Mask).seekop .Content, start := a, stop := b + 1 }, rangeAtm r ty a (b + 1)) := rfl
    have h6 : PElem.calls e n {} (.tag (some r) :: .content :: cs ++ [.assign ty]) [] =
        (.ok { stateidx := 3, print := ({} : Mask).seekop .Content, start := a, stop := b + 1 }, rangeAtm r ty a (b + 1)) := by
      rw [List.cons_append, List.cons_append]
      unfold PElem.calls
      rw [M.bind_ok h2]
      unfold PElem.calls
      rw [ M.bind_ok (h3 _), calls_append, M.bind_ok (h4 _)]
      unfold PElem.calls
      rw [M.bind_ok h5]
      rfl
    unfold build
    rw [M.bind_ok h6]
    rfl
  obtain ⟨s0, h2⟩ : ∃ s0, s0 = ({ atm := rangeAtm r ty a (b + 1), tokens := [{ core := {}, stateidx := 0 }, { core := { mask := ({} : Mask).seekop .OpenTag }, stateidx := 1 }], scope := { mask := ({} : Mask).seekop .OpenTag } } : Sel) := ⟨_, rfl⟩
  have h3 : Sel.mk' (rangeAtm r ty a (b + 1)) = .ok s0 := by rw [h2]; exact range_new ..
  have hinv : RangeInv ty a (b + 1) 0 { mask := ({} : Mask).seekop .Content, typeidx := ty, cntStart := a, cntEnd := b + 1 } := by
    refine ⟨rfl, rfl, .inr ⟨by omega, ?_, rfl, ?_⟩⟩ <;> simp only [] <;> omega
  have h4 : ∀ m, 10 ≤ m → Sel.push m false .OpenTag r s0 =
      (.ok [], rangeSel r ty a (b + 1) { mask := ({} : Mask).seekop .Content, typeidx := ty, cntStart := a, cntEnd := b + 1 }
        .OpenTag none 0 2 2) := by
    intro m hm
    rw [h2]
    exact range_open r ty a (b + 1) hm
  obtain ⟨s', h5⟩ := range_feed hty vs hinv (r := r) (type := .OpenTag) (fr := 0) (to := 2) (iter := 2) (.inl ⟨rfl, rfl⟩)
  refine ⟨_, s0, h1, h3, 10, s', fun m hm => ?_⟩
  unfold Sel.feed
  rw [M.bind_ok (h4 m hm), M.bind_ok (h5 m hm), List.range_eq_range']
  have : ∀ k : Nat, (a ≤ 2 * (k : Int) + 1 ∧ 2 * (k : Int) + 1 < b + 1) = (a ≤ 2 * (k : Int) + 1 ∧ 2 * (k : Int) + 1 ≤ b) := by
    intro k
    rw [Int.lt_add_one_iff]
  simp only [this]
  rfl

/-- C45 (partial): for `r` the root, with a range of contents: the content with index `k` is reported if and only if
`2 * k + 1` is in the range, because every content is counted twice. (The bound for `FROM` is the largest `int`
minus one.)

Missing: the property itself, see `C45_ranges_false`. -/
theorem C45_doubled_partial {e : Enc} (he : ByteSet e) {n : Nat} (hn : 1024 < n) {r : List Byte} (hr : Name e r) {ty : Int} (hty : ty ≠ 0)
    {c : PElem.Call} {a b : Int} (hc : rangeOf c = some (a, b)) (ha : 0 ≤ a) (hb : 0 ≤ b) (vs : List (List Byte)) :
    Selects e n [[.tag (some r), .content, c, .assign ty]] ((.OpenTag, r) :: vs.map fun v => (.Content, v))
      ([] :: (List.range vs.length).map fun k : Nat => if a ≤ 2 * (k : Int) + 1 ∧ 2 * (k : Int) + 1 ≤ b then [ty] else []) := by
  refine range_select he hn hr hty (cs := [c]) ha hb (fun at' => ?_) vs
  unfold PElem.calls
  rw [M.bind_ok (range_call hc hb at')]
  rfl

example : rangeOf (.range 1 5) = some (1, 5) ∧
    Selects .utf8 2000 [[.tag (some [97]), .content, .range 1 5, .assign 7]] ((.OpenTag, [97]) :: [[1], [2], [3], [4]].map fun v => (.Content, v))
      [[], [7], [7], [7], []] :=
  ⟨rfl, C45_doubled_partial (.inl rfl) (by decide) exName.1 (by decide) (c := .range 1 5) rfl (by decide) (by decide) [[1], [2], [3], [4]]⟩

/-- C45 is false for contents, where the elements are counted twice: `INDEX(0)` selects nothing, `RANGE(0,1)` selects only the
first of three contents. And it is false for tags, where ranges have no effect: `INDEX(1)` selects all of three elements. -/
theorem C45_ranges_false :
    Selects .utf8 2000 [[.tag (some [114]), .content, .index 0, .assign 1]]
      [(.OpenTag, [114]), (.Content, [120]), (.Content, [121]), (.Content, [122])] [[], [], [], []] ∧
    Selects .utf8 2000 [[.tag (some [114]), .content, .range 0 1, .assign 1]]
      [(.OpenTag, [114]), (.Content, [120]), (.Content, [121]), (.Content, [122])] [[], [1], [], []] ∧
    Selects .utf8 2000 [[.tag (some [114]), .tag (some [97]), .index 1, .assign 1]]
      [(.OpenTag, [114]), (.OpenTag, [97]), (.CloseTag, [97]), (.OpenTag, [97]), (.CloseTag, [97]), (.OpenTag, [97])]
      [[], [1], [], [1], [], [1]] :=
  ⟨selects_of_run 100 (by decide +kernel), selects_of_run 100 (by decide +kernel), selects_of_run 100 (by decide +kernel)⟩

/-! ## Several ranges -/

/-- A further range. -/
theorem range_further {e : Enc} {n : Nat} {c : PElem.Call} {a b a0 b0 : Int} (hc : rangeOf c = some (a, b)) (hb : 0 ≤ b) (hb0 : 0 ≤ b0) (at' : Atm) :
    PElem.call e n { stateidx := 2, print := ({} : Mask).seekop .Content, start := a0, stop := b0 + 1 } c at' =
        (.ok { stateidx := 2, print := ({} : Mask).seekop .Content, start := if b0 ≤ b ∧ a0 < a then a else a0, stop := (if b < b0 then b else b0) + 1 }, at') := by
  have key : (PElem.doRange a (b + 1) { stateidx := 2, print := ({} : Mask).seekop .Content, start := a0, stop := b0 + 1 }) =
      { stateidx := 2, print := ({} : Mask).seekop .Content, start := if b0 ≤ b ∧ a0 < a then a else a0, stop := (if b < b0 then b else b0) + 1 } := by
    simp only [PElem.doRange]
    rw [if_neg (by omega)]
    by_cases h1 : b < b0
    · rw [if_pos (by omega), if_pos h1, if_neg (by omega)]
    · rw [if_neg (by omega), if_neg h1]
      by_cases h2 : a0 < a
      · rw [if_pos h2, if_pos ⟨by omega, h2⟩]
      · rw [if_neg h2, if_neg (by omega)]
  cases c with
  | to i =>
    cases hc
    show (Res.ok (PElem.to b _), at') = _
    rw [← key]
    simp only [PElem.to, PElem.doCount, if_pos hb]
  | from' i =>
    cases hc
    rw [← key]
    rfl
  | range i j =>
    cases hc
    show (Res.ok (PElem.range a b _), at') = _
    rw [← key]
    simp only [PElem.range, if_pos hb]
  | index i =>
    cases hc
    rw [← key]
    rfl
  | _ => cases hc

theorem ranges_further {e : Enc} {n : Nat} : ∀ {cs : List PElem.Call} {rs : List (Int × Int)} {a0 b0 : Int}, cs.map rangeOf = rs.map some →
    (∀ x ∈ rs, 0 ≤ x.1 ∧ 0 ≤ x.2) → 0 ≤ a0 → 0 ≤ b0 → ∃ a b, 0 ≤ a ∧ 0 ≤ b ∧
    (∀ at', PElem.calls e n { stateidx := 2, print := ({} : Mask).seekop .Content, start := a0, stop := b0 + 1 } cs at' =
      (.ok { stateidx := 2, print := ({} : Mask).seekop .Content, start := a, stop := b + 1 }, at')) ∧
    (∀ i : Int, (a0 ≤ i ∧ i ≤ b0) ∧ (∀ x ∈ rs, x.1 ≤ i ∧ i ≤ x.2) → a ≤ i ∧ i ≤ b) ∧
    (∀ i : Int, i ≤ b → i ≤ b0 ∧ ∀ x ∈ rs, i ≤ x.2) ∧
    ((∀ x ∈ rs, x.2 < b0 → x.1 ≤ a0) → rs.Pairwise (fun x y => y.2 < x.2 → y.1 ≤ x.1) → ∀ i : Int, a ≤ i → a0 ≤ i ∧ ∀ x ∈ rs, x.1 ≤ i) := by
  intro cs
  induction cs with
  | nil =>
    intro rs a0 b0 h h1 ha hb
    have : rs = [] := by cases rs <;> simp_all
    subst this
    exact ⟨a0, b0, ha, hb, fun _ => rfl, fun i h => h.1, fun i h => ⟨h, by simp⟩, fun _ _ i h => ⟨h, by simp⟩⟩
  | cons c cs ih =>
    intro rs a0 b0 h h1 ha hb
    cases rs with
    | nil => simp at h
    | cons x rs =>
      simp only [List.map_cons, List.cons.injEq] at h
      have hx := h1 x (by simp)
      obtain ⟨a, b, g1, g2, g3, g4, g5, g6⟩ := ih (a0 := if b0 ≤ x.2 ∧ a0 < x.1 then x.1 else a0) (b0 := if x.2 < b0 then x.2 else b0) h.2
        (fun y hy => h1 y (by simp [hy])) (by split <;> omega) (by split <;> omega)
      refine ⟨a, b, g1, g2, fun at' => ?_, fun i hi => ?_, fun i hi => ?_, fun k1 k2 i hi => ?_⟩
      · unfold PElem.calls
        rw [M.bind_ok (range_further (a := x.1) (b := x.2) h.1 hx.2 hb at')]
        exact g3 at'
      · have := hi.2 x (by simp)
        refine g4 i ⟨⟨?_, ?_⟩, fun y hy => hi.2 y (by simp [hy])⟩ <;> split <;> omega
      · obtain ⟨m1, m2⟩ := g5 i hi
        refine ⟨?_, fun y hy => ?_⟩
        · split at m1 <;> omega
        · rcases List.mem_cons.1 hy with rfl | hy
          · split at m1 <;> omega
          · exact m2 y hy
      · have k3 := k1 x (by simp)
        obtain ⟨k4, k5⟩ := List.pairwise_cons.1 k2
        obtain ⟨m1, m2⟩ := g6 (fun y hy => by
          have := k1 y (by simp [hy])
          have := k4 y hy
          split <;> split <;> omega) k5 i hi
        refine ⟨by split at m1 <;> omega, fun y hy => ?_⟩
        rcases List.mem_cons.1 hy with rfl | hy
        · split at m1 <;> omega
        · exact m2 y hy

/-- C79 (partial): several ranges for the contents of the root `r`. The content with index `k` is reported if it is in all the ranges (in the sense of
`C45_doubled_partial`), and a content behind the end of one of the ranges is not reported. If no range that ends before another one given before it also begins behind its begin,
nothing else is reported.

Missing: the property itself, see `C79_ranges_false`. -/
theorem C79_ranges_partial {e : Enc} (he : ByteSet e) {n : Nat} (hn : 1024 < n) {r : List Byte} (hr : Name e r) {ty : Int} (hty : ty ≠ 0)
    {cs : List PElem.Call} {rs : List (Int × Int)} (hc : cs.map rangeOf = rs.map some) (hne : rs ≠ []) (hp : ∀ x ∈ rs, 0 ≤ x.1 ∧ 0 ≤ x.2)
    (vs : List (List Byte)) :
    ∃ f : Nat → Bool, Selects e n [.tag (some r) :: .content :: cs ++ [.assign ty]] ((.OpenTag, r) :: vs.map fun v => (.Content, v))
        ([] :: (List.range vs.length).map fun k : Nat => if f k then [ty] else []) ∧
      (∀ k : Nat, (∀ x ∈ rs, x.1 ≤ 2 * (k : Int) + 1 ∧ 2 * (k : Int) + 1 ≤ x.2) → f k = true) ∧
      (∀ k : Nat, f k = true → ∀ x ∈ rs, 2 * (k : Int) + 1 ≤ x.2) ∧
      (rs.Pairwise (fun x y => y.2 < x.2 → y.1 ≤ x.1) → ∀ k : Nat, f k = true → ∀ x ∈ rs, x.1 ≤ 2 * (k : Int) + 1) := by
  cases rs with
  | nil => exact (hne rfl).elim
  | cons x rs =>
    cases cs with
    | nil => simp at hc
    | cons c cs =>
      simp only [List.map_cons, List.cons.injEq] at hc
      have hx := hp x (by simp)
      obtain ⟨a, b, g1, g2, g3, g4, g5, g6⟩ := ranges_further (e := e) (n := n) hc.2 (fun y hy => hp y (by simp [hy])) hx.1 hx.2
      refine ⟨fun k => decide (a ≤ 2 * (k : Int) + 1 ∧ 2 * (k : Int) + 1 ≤ b), ?_, fun k h => ?_, fun k h y hy => ?_, fun h k h' y hy => ?_⟩
      · simp only [decide_eq_true_eq]
        refine range_select he hn hr hty g1 g2 (fun at' => ?_) vs
        unfold PElem.calls
        rw [M.bind_ok (range_call (a := x.1) (b := x.2) hc.1 hx.2 at')]
        exact g3 at'
      · rw [decide_eq_true_eq]
        exact g4 _ ⟨h x (by simp), fun y hy => h y (by simp [hy])⟩
      · rw [decide_eq_true_eq] at h
        obtain ⟨m1, m2⟩ := g5 _ h.2
        rcases List.mem_cons.1 hy with rfl | hy
        · exact m1
        · exact m2 y hy
      · rw [decide_eq_true_eq] at h'
        obtain ⟨k4, k5⟩ := List.pairwise_cons.1 h
        obtain ⟨m1, m2⟩ := g6 k4 k5 _ h'.1
        rcases List.mem_cons.1 hy with rfl | hy
        · exact m1
        · exact m2 y hy

/-- `RANGE(1,9)`, `FROM(3)`, `TO(9)`: each of the ranges changes one bound. -/
example : [PElem.Call.range 1 9, .from' 3, .to 9].map rangeOf = [((1 : Int), (9 : Int)), (3, 2147483646), (0, 9)].map some ∧
    ([((1 : Int), (9 : Int)), (3, 2147483646), (0, 9)] : List (Int × Int)).Pairwise (fun x y => y.2 < x.2 → y.1 ≤ x.1) := by
  decide

/-- C79 is false: with `RANGE(0,9)` and `RANGE(3,5)` the first content is reported; with `RANGE(3,5)` alone it is not. -/
theorem C79_ranges_false :
    Selects .utf8 2000 [[.tag (some [114]), .content, .range 0 9, .range 3 5, .assign 1]]
      [(.OpenTag, [114]), (.Content, [120]), (.Content, [121]), (.Content, [122])] [[], [1], [1], [1]] ∧
    Selects .utf8 2000 [[.tag (some [114]), .content, .range 3 5, .assign 1]]
      [(.OpenTag, [114]), (.Content, [120]), (.Content, [121]), (.Content, [122])] [[], [], [1], [1]] :=
  ⟨selects_of_run 100 (by decide +kernel), selects_of_run 100 (by decide +kernel)⟩

end TW
