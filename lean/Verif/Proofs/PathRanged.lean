import Verif.Proofs.PathFeed
import Verif.Spec.PathRange

/-!
# Queries with ranges
-/

namespace TW

open Path Path.Sel

/-- The token of the output, at the matches before: `2 k` countdowns have been done. -/
def RangeInv (ty s t : Int) (k : Nat) (c : Core) : Prop :=
  c.typeidx = ty ∧ c.mask.neg = 0 ∧
    (t ≤ 2 * k ∧ c.cntEnd = 0 ∨
      2 * k < t ∧ c.cntEnd = t - 2 * k ∧ c.mask = ({} : Mask).seekop .Content ∧ max c.cntStart 0 = max (s - 2 * k) 0)

theorem RangeInv.next {ty s t : Int} {k : Nat} {c : Core} (h : RangeInv ty s t k c) :
    RangeInv ty s t (k + 1) (tick (tick c)) ∧ (fires (tick c) = true ↔ s ≤ 2 * k + 1 ∧ 2 * k + 1 < t) ∧
      (tick c).typeidx = ty ∧ (tick (tick c)).mask.neg = 0 := by
  obtain ⟨h1, h2, h3⟩ := h
  rcases h3 with ⟨h3, h4⟩ | ⟨h3, h4, h5, h6⟩
  · have e : tick c = c := by
      unfold tick
      rw [if_neg (by omega), if_neg (by omega)]
    rw [e, e]
    refine ⟨⟨h1, h2, .inl ⟨by omega, h4⟩⟩, ?_, h1, h2⟩
    simp only [fires, h4, decide_eq_true_eq]
    omega
  · have p1 : c.cntEnd ≠ -1 := by omega
    have p2 : 0 < c.cntEnd := by omega
    have t1 : (tick c).typeidx = ty ∧ (tick c).mask.neg = 0 ∧ (tick c).cntEnd = t - 2 * k - 1 ∧
        (2 * k + 1 < t → (tick c).mask = ({} : Mask).seekop .Content ∧ max (tick c).cntStart 0 = max (s - 2 * k - 1) 0) := by
      unfold tick
      rw [if_neg p1, if_pos p2]
      by_cases q : c.cntStart ≤ 0
      · rw [if_pos q]
        refine ⟨h1, ?_, by simp only [count]; omega, fun h => ⟨?_, by simp only [count]; omega⟩⟩
        · simp only [count]; split
          · rfl
          · exact h2
        · simp only [count]
          rw [if_neg (by omega)]; exact h5
      · rw [if_neg q]
        refine ⟨h1, ?_, by simp only [count]; omega, fun h => ⟨?_, by simp only [count]; omega⟩⟩
        · simp only [count]; split
          · rfl
          · exact h2
        · simp only [count]
          rw [if_neg (by omega)]; exact h5
    obtain ⟨t1, t2, t3, t4⟩ := t1
    by_cases z : 2 * (k : Int) + 1 < t
    · obtain ⟨t5, t6⟩ := t4 z
      have p3 : (tick c).cntEnd ≠ -1 := by omega
      have p4 : 0 < (tick c).cntEnd := by omega
      have f : fires (tick c) = true ↔ s ≤ 2 * k + 1 ∧ 2 * k + 1 < t := by
        simp only [fires, decide_eq_true_eq]
        omega
      have u : (tick (tick c)).typeidx = ty ∧ (tick (tick c)).mask.neg = 0 ∧ (tick (tick c)).cntEnd = t - 2 * k - 2 ∧
          (2 * k + 2 < t → (tick (tick c)).mask = ({} : Mask).seekop .Content ∧ max (tick (tick c)).cntStart 0 = max (s - 2 * k - 2) 0) := by
        generalize tick c = d at *
        unfold tick
        rw [if_neg p3, if_pos p4]
        by_cases q : d.cntStart ≤ 0
        · rw [if_pos q]
          refine ⟨t1, ?_, by simp only [count]; omega, fun h => ⟨?_, by simp only [count]; omega⟩⟩
          · simp only [count]; split
            · rfl
            · exact t2
          · simp only [count]
            rw [if_neg (by omega)]; exact t5
        · rw [if_neg q]
          refine ⟨t1, ?_, by simp only [count]; omega, fun h => ⟨?_, by simp only [count]; omega⟩⟩
          · simp only [count]; split
            · rfl
            · exact t2
          · simp only [count]
            rw [if_neg (by omega)]; exact t5
      obtain ⟨u1, u2, u3, u4⟩ := u
      refine ⟨⟨u1, u2, ?_⟩, f, t1, u2⟩
      by_cases w : 2 * (k : Int) + 2 < t
      · obtain ⟨u5, u6⟩ := u4 w
        exact .inr ⟨by omega, by omega, u5, by omega⟩
      · exact .inl ⟨by omega, by omega⟩
    · have e : tick (tick c) = tick c := by
        generalize tick c = d at *
        unfold tick
        rw [if_neg (by omega), if_neg (by omega)]
      rw [e]
      refine ⟨⟨t1, t2, .inl ⟨by omega, by omega⟩⟩, ?_, t1, t2⟩
      simp only [fires, decide_eq_true_eq]
      omega

end TW

namespace TW.Path

open Spec.Path (Step CStep Cond Open Query Final Item routes answers after grown Tidy HeaderFree Range Ranged Sums counted rangedAnswers narrowed bounds holds)

variable {a : Atm} {lab : List (List Edge)} {key : List Byte} {s : Sel} {ty : Int} {G : List Edge → Prop}
  {q : List Open} {R : List (List Nat)} {B : List Edge → Nat} {cs : List (Nat × Nat)}

/-- The core of an output with bounds. -/
def rcore (c : Core) (rs : List Range) : Core :=
  match bounds rs with
  | none => c
  | some (a, b) => { c with cntStart := a, cntEnd := b + 1 }

theorem rcore_mask (c : Core) (rs : List Range) : (rcore c rs).mask = c.mask := by unfold rcore; split <;> rfl

theorem rcore_follow (c : Core) (rs : List Range) : (rcore c rs).follow = c.follow := by unfold rcore; split <;> rfl

theorem range_adv {ty s t : Int} {k : Nat} {c : Core} (h : RangeInv ty s t k c) : RangeInv ty s t (k + 1) (adv c) := by
  unfold Path.adv
  split
  · exact h.next.1
  · rename_i hm
    obtain ⟨h1, h2, ⟨h3, h4⟩ | ⟨h3, h4, h5, -⟩⟩ := h
    · exact ⟨h1, h2, .inl ⟨by omega, h4⟩⟩
    · rw [h5] at hm
      exact absurd (by decide) hm

theorem range_advs {ty s t : Int} {c : Core} (h : RangeInv ty s t 0 c) : ∀ n, RangeInv ty s t n (advs n c)
  | 0 => h
  | n + 1 => range_adv (range_advs h n)

theorem range_hit {ty s t : Int} {k : Nat} {c : Core} (h : RangeInv ty s t k c) :
    leafHit .Content c = true ↔ s ≤ 2 * k + 1 ∧ 2 * k + 1 < t := by
  have hf := h.next.2.1
  unfold leafHit
  rw [Bool.and_eq_true, hf]
  constructor
  · exact fun h => h.2
  · intro h'
    refine ⟨?_, h'⟩
    obtain ⟨-, -, ⟨h3, -⟩ | ⟨-, -, h5, -⟩⟩ := h
    · omega
    · rw [h5]; decide

theorem narrowed_nonneg {p x : Int × Int} (h : 0 ≤ p.2) (hx : 0 ≤ x.2) : 0 ≤ (narrowed p x).2 := by
  unfold narrowed
  split
  · exact hx
  · split <;> exact h

theorem bounds_nonneg {rs : List Range} (hr : ∀ r ∈ rs, r.Ok) {a b : Int} (h : bounds rs = some (a, b)) : 0 ≤ b := by
  cases rs with
  | nil => cases h
  | cons r rs =>
    have : ∀ (rs : List Range) (p : Int × Int), (∀ r ∈ rs, r.Ok) → 0 ≤ p.2 → 0 ≤ (rs.foldl (fun p r => narrowed p r.bounds) p).2 := by
      intro rs
      induction rs with
      | nil => intro p _ h; exact h
      | cons r rs ih =>
        intro p hr h
        exact ih _ (fun r h => hr r (List.mem_cons_of_mem _ h)) (narrowed_nonneg h (hr r (List.mem_cons_self ..)).1)
    have h2 := this rs r.bounds (fun r h => hr r (List.mem_cons_of_mem _ h)) (hr r (List.mem_cons_self ..)).1
    have h : (rs.foldl (fun p r => narrowed p r.bounds) r.bounds) = (a, b) := Option.some.inj h
    rw [h] at h2
    exact h2

/-- A content behind `n` others. -/
theorem shown_range {c : Core} {r : List Range} (hr : ∀ x ∈ r, x.Ok) (h1 : c.mask = contMask) (h3 : c.cntEnd = -1) (n : Nat) :
    shown (rcore c r) n = holds r n := by
  unfold rcore holds
  cases hb : bounds r with
  | none => exact shown_flat h3 h1 n
  | some p =>
    obtain ⟨s, t⟩ := p
    have k1 := bounds_nonneg hr hb
    have h0 : RangeInv c.typeidx s (t + 1) 0 { c with cntStart := s, cntEnd := t + 1 } :=
      ⟨rfl, by show c.mask.neg = 0; rw [h1]; rfl, .inr ⟨by omega, by simp, h1, by simp⟩⟩
    unfold shown
    rw [Bool.eq_iff_iff, range_hit (range_advs h0 n), decide_eq_true_eq]
    omega

/-- The value of an attribute. -/
theorem fires_range {c : Core} {r : List Range} (hr : ∀ x ∈ r, x.Ok) (h3 : c.cntEnd = -1) : Sel.fires (Sel.tick (rcore c r)) = holds r 0 := by
  unfold rcore holds
  cases hb : bounds r with
  | none => exact fires_flat h3
  | some p =>
    obtain ⟨s, t⟩ := p
    have k1 := bounds_nonneg hr hb
    unfold Sel.tick Sel.fires
    simp only []
    rw [if_neg (by omega), if_pos (by omega)]
    rw [Bool.eq_iff_iff, decide_eq_true_eq]
    by_cases hs : s ≤ 0
    · rw [if_pos hs]
      simp only [Sel.count, decide_eq_true_eq]
      omega
    · rw [if_neg hs]
      simp only [Sel.count, decide_eq_true_eq]
      omega

/-- The reports over a stream, with ranges. -/
def amountsR (os : List (List Edge × Core)) (B : List Edge → Nat) (ph : Ph) (q : List Open) (cs : List (Nat × Nat)) : List Item → List Nat
  | [] => []
  | it :: items => (os.map (amountR B it.1 it.2 ph q cs)).sum ::
      amountsR os (baseAfter B ph q it.1 it.2) (ph.next it.1 it.2) (afterRev ph q it.1 it.2) (sumsAfter q cs it.1) items

theorem Inv.feedR (g : Goal a lab ty G) (items : List Item) : ∀ {B ph q R s cs}, Inv a lab ty G B ph q R s → Rg a ty ph R cs s.tokens →
    HdrOk G B ph q items → (Asks a lab ty G → PhOks (RootAsk a lab ty) B ph q items) → (q ≠ [] → ph ≠ .start) →
    ∃ N rss s', (∀ n, N ≤ n → Sel.feed n items s = (.ok rss, s')) ∧
      rss.map (·.count ty) = amountsR (outs a lab ty) B ph q cs items := by
  induction items with
  | nil => intro B ph q R s cs h _ _ _ _; exact ⟨0, [], s, fun _ _ => rfl, rfl⟩
  | cons it items ih =>
    intro B ph q R s cs h hr hh hp hs
    obtain ⟨type, key⟩ := it
    obtain ⟨N, rs, s1, R1, h1, h2, h2', h3⟩ := h.itemR g hr type key hh.1 (fun k => (hp k).1) hs
    obtain ⟨N2, rss, s2, h4, h5⟩ := ih h2 h2' hh.2 (fun k => (hp k).2) (fun _ => Ph.next_ne _ _ _)
    refine ⟨max N N2, rs :: rss, s2, ?_, ?_⟩
    · intro n hn
      unfold Sel.feed
      rw [M.bind_ok (h1 n (by omega)), M.bind_ok (h4 n (by omega))]
      rfl
    · rw [List.map_cons, h5, h3]
      rfl

/-- The ways to the elements containing one, those with a number of contents fulfilling a condition. -/
theorem belowR_sum (f : List Open → Nat) (L : List Edge) (hf : ∀ q, W B L q = f q.reverse) (h : Nat → Bool) :
    ∀ (q : List Open) (cs : List (Nat × Nat)) (tl : Sums) (tp : List Open), cs.length = q.length → belowR B h L q cs =
      ((List.range q.length).map fun i => match (cs.reverse ++ tl)[i]? with
        | some c => if h c.2 = true then f ((q.reverse ++ tp).take i) else 0
        | none => 0).sum := by
  intro q
  induction q with
  | nil => intro cs tl tp hc; cases cs <;> rfl
  | cons x q ih =>
    intro cs tl tp hc
    cases cs with
    | nil => cases hc
    | cons c cs =>
      have hl : cs.length = q.length := by simpa using hc
      show (if h c.2 = true then W B L q else 0) + belowR B h L q cs = _
      rw [List.length_cons, List.range_succ, List.map_append, List.sum_append_nat, ih cs ([c] ++ tl) ([x] ++ tp) hl, Nat.add_comm]
      congr 1
      · simp
      · simp only [List.map_cons, List.map_nil, List.sum_cons, List.sum_nil, Nat.add_zero, List.reverse_cons, List.append_assoc]
        rw [List.getElem?_append_right (by simp [hl]), List.take_append_of_le_length (by simp), List.take_of_length_le (by simp)]
        simp [hl, hf]

theorem counted_rev (q : List Open) (cs : List (Nat × Nat)) (hc : cs.length = q.length + 1) (it : Item) :
    counted cs.reverse it = (sumsAfter q cs it.1).reverse := by
  obtain ⟨type, key⟩ := it
  obtain ⟨c, cs, rfl⟩ : ∃ c cs', cs = c :: cs' := by
    cases cs with
    | nil => simp at hc
    | cons c cs => exact ⟨c, cs, rfl⟩
  have close : (type = .CloseTag ∨ type = .CloseTagIm) → counted (c :: cs).reverse (type, key) = (sumsAfter q (c :: cs) type).reverse := by
    intro ht
    have e1 : counted (c :: cs).reverse (type, key) = if (c :: cs).reverse.length ≤ 1 then (c :: cs).reverse else (c :: cs).reverse.dropLast := by
      rcases ht with rfl | rfl <;> rfl
    rw [e1]
    cases q with
    | nil =>
      have : cs = [] := by simpa using hc
      subst this
      rcases ht with rfl | rfl <;> rfl
    | cons x q =>
      have hl : cs.length = q.length + 1 := by simpa using hc
      rw [if_neg (by simp [hl]), show sumsAfter (x :: q) (c :: cs) type = cs by rcases ht with rfl | rfl <;> rfl]
      simp
  by_cases h1 : type = .CloseTag
  · exact close (.inl h1)
  by_cases h2 : type = .CloseTagIm
  · exact close (.inr h2)
  by_cases h3 : type = .Content
  · subst h3
    show (c :: cs).reverse.dropLast.map (fun c => (c.1, c.2 + 1)) ++ ((c :: cs).reverse.getLast?.map fun c => (c.1 + 1, c.2 + 1)).toList = (bump (c :: cs)).reverse
    simp [bump]
  by_cases h4 : type = .OpenTag
  · subst h4
    show (c :: cs).reverse ++ [(0, 0)] = ((0, 0) :: c :: cs).reverse
    simp
  cases type <;> first | rfl | exact (h1 rfl).elim | exact (h2 rfl).elim | exact (h3 rfl).elim | exact (h4 rfl).elim

theorem sums_len (ph : Ph) {q : List Open} {cs : List (Nat × Nat)} (hc : cs.length = q.length + 1) (type : ElementType) (key : List Byte) :
    (sumsAfter q cs type).length = (afterRev ph q type key).length + 1 := by
  obtain ⟨c, cs, rfl⟩ : ∃ c cs', cs = c :: cs' := by
    cases cs with
    | nil => simp at hc
    | cons c cs => exact ⟨c, cs, rfl⟩
  have hl : cs.length = q.length := by simpa using hc
  have att : ∀ type, (attRev ph q type key).length = q.length := by
    intro type
    unfold attRev
    split <;> rfl
  have close : (type = .CloseTag ∨ type = .CloseTagIm) → (sumsAfter q (c :: cs) type).length = (afterRev ph q type key).length + 1 := by
    intro ht
    rw [show afterRev ph q type key = q.tail by rcases ht with rfl | rfl <;> rfl]
    cases q with
    | nil => rcases ht with rfl | rfl <;> exact hc
    | cons x q => rcases ht with rfl | rfl <;> exact hl
  by_cases h1 : type = .CloseTag
  · exact close (.inl h1)
  by_cases h2 : type = .CloseTagIm
  · exact close (.inr h2)
  by_cases h3 : type = .Content
  · subst h3
    show (bump (c :: cs)).length = (attRev ph q .Content key).length + 1
    rw [att]
    simp [bump, hl]
  by_cases h4 : type = .OpenTag
  · subst h4
    show ((0, 0) :: c :: cs).length = (⟨key, []⟩ :: q : List Open).length + 1
    simp [hl]
  rw [show sumsAfter q (c :: cs) type = c :: cs by
    cases type <;> first | rfl | exact (h1 rfl).elim | exact (h2 rfl).elim | exact (h3 rfl).elim | exact (h4 rfl).elim]
  rw [show afterRev ph q type key = attRev ph q type key by
    cases type <;> first | rfl | exact (h1 rfl).elim | exact (h2 rfl).elim | exact (h3 rfl).elim | exact (h4 rfl).elim, att]
  exact hc

theorem sum_zero : ∀ {l : List Nat}, (∀ k ∈ l, k = 0) → l.sum = 0
  | [], _ => rfl
  | k :: l, h => by
    rw [List.sum_cons, h k (List.mem_cons_self ..), sum_zero fun k hk => h k (List.mem_cons_of_mem _ hk)]

/-- What is reported for a query with a range. -/
theorem amountR_ranged {x : Ranged} (hr : ∀ r ∈ x.ranges, r.Ok) (q : List Open) (cs : List (Nat × Nat)) (hc : cs.length = q.length + 1) (ph : Ph) (prev : Option Item)
    (it : Item) (hne : RootOk x.query) (hp : PhFor prev ph)
    (ht : it.1 = .TagAttribValue → ∃ p, prev = some p ∧ p.1 = .TagAttribName)
    (hh : it.1 = .HeaderEnd ∨ it.1 = .HeaderAttribValue → q = [] ∧ ph = .off) (hst : ph ≠ .start) :
    amountR bare it.1 it.2 ph q cs (labelOf x.query, rcore (coreOf x.query) x.ranges) = x.answers q.reverse cs.reverse prev it := by
  have ha := amount_query q q.reverse ph prev it
    (fun _ h d hx => by rcases hne h with ⟨d, h⟩ | ⟨d, nm, h⟩ <;> rw [hx] at h <;> cases h) (by simp) (fun _ => ⟨rfl, hp, ht, hh⟩) hst
  have empty : (coreOf x.query).mask = {} → amountR bare it.1 it.2 ph q cs (labelOf x.query, rcore (coreOf x.query) x.ranges) =
      x.query.answers q.reverse prev it := by
    intro hm
    rw [← ha]
    unfold amountR amount
    simp only [rcore_mask, hm, if_true]
  unfold Ranged.answers
  cases hx : x.query.final with
  | element => exact empty (by unfold coreOf; simp only [hx])
  | closeTag d => exact empty (by unfold coreOf; simp only [hx])
  | «attribute» d name =>
    have hm : (coreOf x.query).mask = valMask := by unfold coreOf; simp only [hx]; rfl
    have he : (coreOf x.query).cntEnd = -1 := by unfold coreOf; simp only [hx]
    simp only []
    rw [← ha]
    unfold amountR amount
    simp only [rcore_mask, hm, if_neg (show ¬ valMask = ({} : Mask) by decide), if_neg (show ¬ valMask = contMask by decide), fires_range hr he]
    cases holds x.ranges 0
    · simp only [Bool.false_eq_true, and_false, if_false]
      split <;> rfl
    · simp only [and_true, if_true]
  | content desc =>
    have hm : (coreOf x.query).mask = contMask := by unfold coreOf; simp only [hx]; rfl
    have he : (coreOf x.query).cntEnd = -1 := by unfold coreOf; simp only [hx]
    have hfo : (coreOf x.query).follow = desc := by unfold coreOf; simp only [hx]
    have hl : labelOf x.query = x.query.steps.flatMap stepEdges := by unfold labelOf; simp only [hx, List.append_nil]
    obtain ⟨type, key⟩ := it
    by_cases htc : type = .Content
    · subst htc
      obtain ⟨c, cs, rfl⟩ : ∃ c cs', cs = c :: cs' := by
        cases cs with
        | nil => simp at hc
        | cons c cs => exact ⟨c, cs, rfl⟩
      have hl' : cs.length = q.length := by simpa using hc
      unfold amountR
      simp only [rcore_mask, rcore_follow, hm, hfo, hl, if_neg (show ¬ contMask = ({} : Mask) by decide), if_true, List.length_reverse]
      rw [show shown (rcore (coreOf x.query) x.ranges) = holds x.ranges from funext fun k => shown_range hr hm he k, List.range_succ,
        List.map_append, List.sum_append_nat, Nat.add_comm]
      congr 1
      · cases desc
        · simp only [Bool.false_eq_true, if_false, false_or]
          symm
          apply sum_zero
          intro k hk
          obtain ⟨i, hi, rfl⟩ := List.mem_map.1 hk
          have := List.mem_range.1 hi
          split
          · rw [if_neg (by omega)]
          · rfl
        · rw [if_pos rfl, belowR_sum (routes x.query.steps) _ (W_routes _) _ q cs [c] [] hl']
          congr 1
          apply List.map_congr_left
          intro i _
          simp only [List.append_nil, List.reverse_cons, true_or, true_and, if_true]
          cases (cs.reverse ++ [c])[i]? <;> rfl
      · simp only [List.map_cons, List.map_nil, List.sum_cons, List.sum_nil, Nat.add_zero, List.reverse_cons]
        rw [List.getElem?_append_right (by simp [hl']), List.take_of_length_le (by simp)]
        simp [hl', W_routes, num]
    · unfold amountR
      simp only [rcore_mask, hm, if_neg (show ¬ contMask = ({} : Mask) by decide), if_true, if_neg htc]
      cases type <;> first | rfl | exact (htc rfl).elim

theorem amountsR_answers {xs : List Ranged} (hr : ∀ x ∈ xs, ∀ r ∈ x.ranges, r.Ok)
    (hne : ∀ x ∈ xs, x.query.type = ty → RootOk x.query) (items : List Item) :
    ∀ prev ph (q : List Open) (cs : List (Nat × Nat)), cs.length = q.length + 1 → PhFor prev ph → Tidy (q.map (·.name)).reverse prev items →
    ph ≠ .start → (q = [] → ph = .off) →
    amountsR ((xs.filter (·.query.type = ty)).map fun x => (labelOf x.query, rcore (coreOf x.query) x.ranges)) bare ph q cs items =
      rangedAnswers xs ty q.reverse cs.reverse prev items := by
  induction items with
  | nil => intro _ _ _ _ _ _ _ _ _; rfl
  | cons it items ih =>
    intro prev ph q cs hc hp ht hst hq
    obtain ⟨k4, k5, k7, k6⟩ := ht
    unfold amountsR rangedAnswers
    rw [(off_next hq it.1 it.2).1, counted_rev q cs hc, grown_rev hp q it k5 (fun k => by simpa using k7 (.inl k)),
      ← ih (some it) (ph.next it.1 it.2) (afterRev ph q it.1 it.2) (sumsAfter q cs it.1) (sums_len ph hc it.1 it.2) (hp.next it k4 k5)
        (by rw [← after_rev]; exact k6) (Ph.next_ne _ _ _) (off_next (B := bare) hq it.1 it.2).2]
    congr 1
    rw [List.map_map]
    congr 1
    apply List.map_congr_left
    intro x hx
    obtain ⟨k1, k2⟩ := List.mem_filter.1 hx
    have k2 : x.query.type = ty := by simpa using k2
    exact amountR_ranged (hr x k1) q cs hc ph prev it (hne x k1 k2) hp k5 (fun k => by
        have : q = [] := by simpa using k7 k.symm
        exact ⟨this, hq this⟩) hst

/-- The call of a range. -/
theorem range_do {e : Enc} {n : Nat} {p : PElem} {r : Range} (hr : r.Ok) (a : Atm) :
    p.call e n r.call a = (.ok (p.doRange r.bounds.1 (r.bounds.2 + 1)), a) := by
  obtain ⟨h1, -⟩ := hr
  cases r with
  | to b =>
    show (Res.ok (p.to b), a) = _
    unfold PElem.to PElem.doCount
    rw [if_pos (show 0 ≤ b from h1)]
    rfl
  | «from» s => rfl
  | range s t =>
    show (Res.ok (p.range s t), a) = _
    unfold PElem.range
    rw [if_pos (show 0 ≤ t from h1)]
    rfl
  | index i => rfl

theorem doRange_narrowed {p : PElem} {b x : Int × Int} (hb : 0 ≤ b.2) (h1 : p.start = b.1) (h2 : p.stop = b.2 + 1) :
    p.doRange x.1 (x.2 + 1) = { p with start := (narrowed b x).1, stop := (narrowed b x).2 + 1 } := by
  unfold PElem.doRange narrowed
  rw [if_neg (by omega)]
  by_cases k1 : x.2 < b.2
  · rw [if_pos (by omega), if_pos k1, ← h1]
  · rw [if_neg (by omega), if_neg k1, h1]
    by_cases k2 : b.1 < x.1
    · rw [if_pos k2, if_pos k2, ← h2]
    · rw [if_neg k2, if_neg k2, ← h1, ← h2]

theorem doRanges_narrowed (rs : List Range) : ∀ {p : PElem} {b : Int × Int}, (∀ r ∈ rs, r.Ok) → 0 ≤ b.2 → p.start = b.1 → p.stop = b.2 + 1 →
    rs.foldl (fun p r => p.doRange r.bounds.1 (r.bounds.2 + 1)) p =
      { p with start := (rs.foldl (fun p r => narrowed p r.bounds) b).1, stop := (rs.foldl (fun p r => narrowed p r.bounds) b).2 + 1 } := by
  induction rs with
  | nil =>
    intro p b _ _ h1 h2
    rw [List.foldl_nil, List.foldl_nil, ← h1, ← h2]
  | cons r rs ih =>
    intro p b hr hb h1 h2
    rw [List.foldl_cons, List.foldl_cons, doRange_narrowed hb h1 h2,
      ih (fun r h => hr r (List.mem_cons_of_mem _ h)) (narrowed_nonneg hb (hr r (List.mem_cons_self ..)).1) rfl rfl]

/-- What ranges make of a path element. -/
theorem doRanges_out {p : PElem} {rs : List Range} (hr : ∀ r ∈ rs, r.Ok) (h : p.stop = -1) (type : Int) :
    (rs.foldl (fun p r => p.doRange r.bounds.1 (r.bounds.2 + 1)) p).stateidx = p.stateidx ∧
    (rs.foldl (fun p r => p.doRange r.bounds.1 (r.bounds.2 + 1)) p).out type = rcore (p.out type) rs := by
  cases rs with
  | nil => exact ⟨rfl, rfl⟩
  | cons r rs =>
    have h1 : p.doRange r.bounds.1 (r.bounds.2 + 1) = { p with start := r.bounds.1, stop := r.bounds.2 + 1 } := by
      unfold PElem.doRange
      rw [if_pos h]
    rw [List.foldl_cons, h1, doRanges_narrowed rs (fun r h => hr r (List.mem_cons_of_mem _ h)) (b := r.bounds) (hr r (List.mem_cons_self ..)).1 rfl rfl]
    exact ⟨rfl, rfl⟩

theorem ranges_calls {e : Enc} {n : Nat} : ∀ {rs : List Range} {p : PElem}, (∀ r ∈ rs, r.Ok) → ∀ (a : Atm),
    p.calls e n (rs.map Range.call) a = (.ok (rs.foldl (fun p r => p.doRange r.bounds.1 (r.bounds.2 + 1)) p), a)
  | [], _, _, _ => rfl
  | r :: rs, p, hr, a => by
    show (PElem.call e n p r.call >>= fun p => PElem.calls e n p (rs.map Range.call)) a = _
    rw [M.bind_ok (range_do (hr r (List.mem_cons_self ..)) a)]
    exact ranges_calls (fun r h => hr r (List.mem_cons_of_mem _ h)) a

/-- Calls with ranges. -/
theorem range_out {e : Enc} {n : Nat} {p : PElem} {rs : List Range} (hr : ∀ r ∈ rs, r.Ok) {c : Core} {type : Int} (hp : p.out type = c) (h0 : c.cntEnd = -1)
    (a : Atm) : ∃ p', p.calls e n (rs.map Range.call) a = (.ok p', a) ∧ p'.stateidx = p.stateidx ∧ p'.out type = rcore c rs := by
  have hstop : p.stop = -1 := by rw [← h0, ← hp]; rfl
  subst hp
  exact ⟨_, ranges_calls hr a, doRanges_out hr hstop type⟩

theorem At.ranged {E : Prop} {e : Enc} {n : Nat} (h : At E a lab {} []) {x : Ranged} (hr : ∀ r ∈ x.ranges, r.Ok) (hq : QueryFits E e n x.query) :
    ∃ p' a' lab' L', ({} : PElem).calls e n x.calls a = (.ok p', a') ∧ At E a' lab' p' L' ∧
      ∀ ty, ty ≠ 0 → outs a' lab' ty =
        outs a lab ty ++ if x.query.type = ty then [(labelOf (keyed e n x.query), rcore (coreOf (keyed e n x.query)) x.ranges)] else [] := by
  obtain ⟨p1, a2, lab2, g1, g2, g3, g4⟩ := h.final hq.1 hq.2
  obtain ⟨p2, g5, g6, g7⟩ := range_out (e := e) (n := n) hr g3 (by unfold coreOf; cases x.query.final <;> rfl) a2
  obtain ⟨j', a3, lab3, k1, k2, k3⟩ := (g2.of g6).push x.query.type
  refine ⟨_, a3, lab3, _, ?_, k2, ?_⟩
  · unfold Ranged.calls
    rw [List.append_assoc, calls_append, M.bind_ok g1, calls_append, M.bind_ok g5]
    exact M.bind_ok (f := fun p => PElem.calls e n p []) k1
  · intro ty hty
    rw [k3 ty hty, g4 ty hty, g7, coreOf_keyed]

/-- The keys instead of the names and values. -/
def keyedRanged (e : Enc) (n : Nat) (x : Ranged) : Ranged := { x with query := keyed e n x.query }

theorem build_ranged {E : Prop} {e : Enc} {n : Nat} (xs : List Ranged) : ∀ {a lab}, At E a lab {} [] → (∀ x ∈ xs, QueryFits E e n x.query) → (∀ x ∈ xs, ∀ r ∈ x.ranges, r.Ok) →
    ∃ a' lab', build e n (xs.map Ranged.calls) a = (.ok (), a') ∧ At E a' lab' {} [] ∧ ∀ ty, ty ≠ 0 →
      outs a' lab' ty = outs a lab ty ++
        ((xs.map (keyedRanged e n)).filter (·.query.type = ty)).map fun x => (labelOf x.query, rcore (coreOf x.query) x.ranges) := by
  induction xs with
  | nil => intro a lab h _ _; exact ⟨a, lab, rfl, h, by simp⟩
  | cons x xs ih =>
    intro a lab h hd hr
    have hd0 := hd x (List.mem_cons_self ..)
    obtain ⟨p', a1, lab1, L', h1, h2, h3⟩ := h.ranged (x := x) (e := e) (n := n) (hr x (List.mem_cons_self ..)) hd0
    obtain ⟨a2, lab2, h4, h5, h6⟩ := ih h2.reset (fun d hd' => hd d (List.mem_cons_of_mem _ hd')) (fun d hd' => hr d (List.mem_cons_of_mem _ hd'))
    refine ⟨a2, lab2, ?_, h5, fun ty hty => ?_⟩
    · show (PElem.calls e n {} x.calls >>= fun _ => build e n (xs.map Ranged.calls)) a = _
      rw [M.bind_ok h1]
      exact h4
    · rw [h6 ty hty, h3 ty hty, List.append_assoc]
      congr 1
      by_cases hx : x.query.type = ty
      · simp [hx, keyedRanged, keyed]
      · simp [hx, keyedRanged, keyed]

theorem erase_ranged (x : Ranged) : erase (labelOf x.query, rcore (coreOf x.query) x.ranges) = (labelOf x.query, coreOf x.query) := by
  rw [← erase_query x.query]
  unfold erase rcore
  cases bounds x.ranges <;> rfl

/-- The reports of a selector for an automaton with the outputs of queries with ranges. -/
theorem select_ranged {E : Prop} {xs : List Ranged} (hty : ty ≠ 0) (h2 : At E a lab {} [])
    (h3 : outs a lab ty = (xs.filter (·.query.type = ty)).map fun x => (labelOf x.query, rcore (coreOf x.query) x.ranges))
    (hr : ∀ x ∈ xs, ∀ r ∈ x.ranges, r.Ok)
    (hne : ∀ x ∈ xs, x.query.type = ty → RootOk x.query)
    (hq : ∀ x ∈ xs, x.query.type = ty → ∀ name, x.query.final = .attribute true name → NoCont a) (items : List Item)
    (hh : HeaderFree (((xs.map (·.query)).filter (·.type = ty)).map fun x => x.steps.map (·.toStep)) [] items) (ht : Tidy [] none items)
    (ha : ∀ x ∈ xs, x.query.type = ty → x.query.steps = [] → ∀ d name, x.query.final = .attribute d name → ∀ it ∈ items, it.1 ≠ .HeaderAttribValue) :
    ∃ s, Sel.mk' a = .ok s ∧
      ∃ N rss s', (∀ m, N ≤ m → Sel.feed m items s = (.ok rss, s')) ∧
        rss.map (·.count ty) = rangedAnswers xs ty [] [(0, 0)] none items := by
  have h3' : (outs a lab ty).map erase = ((xs.map (·.query)).filter (·.type = ty)).map fun x => (labelOf x, coreOf x) := by
    rw [h3, List.map_map, List.filter_map, List.map_map]
    exact List.map_congr_left fun x _ => erase_ranged x
  have g := goal_outs hty h2 h3' (fun y hy => by
    obtain ⟨x, hx, rfl⟩ := List.mem_map.1 hy
    exact hne x hx) (fun y hy => by
    obtain ⟨x, hx, rfl⟩ := List.mem_map.1 hy
    exact hq x hx)
  obtain ⟨s, R, h4, h5, h5'⟩ := init_inv g
  have off : PhFor none .off := fun _ h => nomatch h
  obtain ⟨N, rss, s', h6, h7⟩ := h5.rest.feedR g items h5'.rest (hdr_ok items .off [] (fun _ => rfl) hh)
    (asks_ok h3' (fun _ _ _ _ => ht) fun y hy => by
      obtain ⟨x, hx, rfl⟩ := List.mem_map.1 hy
      exact ha x hx) (fun hx => (hx rfl).elim)
  refine ⟨s, h4, N, rss, s', h6, ?_⟩
  rw [h7, h3]
  exact amountsR_answers hr hne items none .off [] [(0, 0)] rfl off ht (fun hx => nomatch hx) fun _ => rfl

end TW.Path
