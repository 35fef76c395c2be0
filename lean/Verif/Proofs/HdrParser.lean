import Verif.Model.HdrParser
import Verif.Spec.Header

/-!
# The header parser as a machine on bytes
-/

namespace TW.HdrParser

open Spec

/-- What reading a byte other than NUL does. -/
def count (b : Byte) (s : HdrParser) : HdrParser :=
  { s with zeroCount := 0, charsConsumed := if 32 < b then s.charsConsumed + 1 else s.charsConsumed }

/-- Set the parts of the state that the interpretation of characters does not use. -/
def off (i z : Nat) (x : List Byte) (s : HdrParser) : HdrParser := { s with idx := i, zeroCount := z, src := x }

/-- Code that neither depends on the source nor changes it, and that sets an error exactly if it
returns false. -/
def Indep (x : M HdrParser (Option Bool)) : Prop := ∀ (i z : Nat) (w : List Byte) (s : HdrParser),
    ∃ r s', x s = (.ok r, s') ∧ x (off i z w s) = (.ok r, off i z w s') ∧
      s'.idx = s.idx ∧ s'.zeroCount = s.zeroCount ∧ s'.src = s.src ∧
      (r ≠ some false → s'.lasterror = s.lasterror) ∧ (r = some false → s'.lasterror ≠ "") ∧
      s'.charsConsumed = s.charsConsumed

theorem Indep.ite {c : Prop} [Decidable c] {x y : M HdrParser (Option Bool)} (hx : Indep x) (hy : Indep y) :
    Indep (if c then x else y) := by
  by_cases h : c
  · rw [if_pos h]; exact hx
  · rw [if_neg h]; exact hy

theorem Indep.go {f : HdrParser → HdrParser} (h : ∀ i z w s, f (off i z w s) = off i z w (f s) ∧
    (f s).idx = s.idx ∧ (f s).zeroCount = s.zeroCount ∧ (f s).src = s.src ∧ (f s).lasterror = s.lasterror ∧
    (f s).charsConsumed = s.charsConsumed) : Indep (go f) := fun i z w s =>
  ⟨none, f s, rfl, by unfold HdrParser.go; rw [M.bind_ok (M.modify_run _ _), (h i z w s).1]; rfl, (h i z w s).2.1,
    (h i z w s).2.2.1, (h i z w s).2.2.2.1, fun _ => (h i z w s).2.2.2.2.1, fun h => (nomatch h), (h i z w s).2.2.2.2.2⟩

theorem Indep.fail {m : String} (h : m ≠ "") : Indep (fail m) := fun _ _ _ s =>
  ⟨some false, { s with lasterror := m }, rfl, rfl, rfl, rfl, rfl, fun h => absurd rfl h, fun _ => h, rfl⟩

theorem Indep.none : Indep (Pure.pure Option.none) := fun _ _ _ s =>
  ⟨Option.none, s, rfl, rfl, rfl, rfl, rfl, fun _ => rfl, fun h => (nomatch h), rfl⟩

theorem Indep.true : Indep (Pure.pure (some Bool.true)) := fun _ _ _ s =>
  ⟨some Bool.true, s, rfl, rfl, rfl, rfl, rfl, fun _ => rfl, fun h => (nomatch h), rfl⟩

/-- The interpretation of a character neither depends on the source nor does it change it. -/
theorem switch_indep (ch : Byte) (s : HdrParser) : Indep (switch ch s) := by
  obtain ⟨st, aty, ix, cc, zc, it, sr, en, le⟩ := s
  cases st
  all_goals simp only [switch, endName]
  all_goals
    repeat' first
      | exact Indep.none
      | exact Indep.true
      | exact Indep.fail (by decide)
      | exact Indep.go fun _ _ _ _ => ⟨rfl, rfl, rfl, rfl, rfl, rfl⟩
      | exact fun _ _ _ s => ⟨some Bool.true, { s with item := [] }, rfl, rfl, rfl, rfl, rfl, fun _ => rfl,
          fun h => (nomatch h), rfl⟩
      | apply Indep.ite

theorem consume_off (ch : Byte) : Indep (consume ch) := fun i z w s => switch_indep ch s i z w s

/-- The machine on bytes. -/
def hrun (s : HdrParser) : List Byte → Res Outcome × HdrParser
  | [] => (.ok .more, s)
  | b :: bs =>
    if b = 0 then
      if s.zeroCount + 1 = 4 then
        (.stop (.throw .IllegalXmlHeader), { s with idx := s.idx + 1, zeroCount := s.zeroCount + 1 })
      else hrun { s with idx := s.idx + 1, zeroCount := s.zeroCount + 1 } bs
    else match consume b (count b { s with idx := s.idx + 1 }) with
      | (.ok none, s') => hrun s' bs
      | (.ok (some true), s') => (.ok .done, s')
      | (.ok (some false), s') => (.ok .failed, s')
      | (.stop e, s') => (.stop e, s')

theorem hrun_zero_throw {s : HdrParser} {bs : List Byte} (h : s.zeroCount + 1 = 4) : hrun s (0 :: bs) =
    (.stop (.throw .IllegalXmlHeader), { s with idx := s.idx + 1, zeroCount := s.zeroCount + 1 }) := by
  unfold hrun; rw [if_pos rfl, if_pos h]

theorem hrun_zero {s : HdrParser} {bs : List Byte} (h : s.zeroCount + 1 ≠ 4) : hrun s (0 :: bs) =
    hrun { s with idx := s.idx + 1, zeroCount := s.zeroCount + 1 } bs := by
  conv => lhs; unfold hrun
  rw [if_pos rfl, if_neg h]

/-- Go on after a character. -/
def cont (s : HdrParser) (bs : List Byte) : Option Bool → Res Outcome × HdrParser
  | none => hrun s bs
  | some true => (.ok .done, s)
  | some false => (.ok .failed, s)

theorem hrun_char {s s' : HdrParser} {b : Byte} {r : Option Bool} (bs : List Byte) (hb : b ≠ 0)
    (h : consume b (count b { s with idx := s.idx + 1 }) = (.ok r, s')) : hrun s (b :: bs) =
    cont s' bs r := by
  conv => lhs; unfold hrun
  rw [if_neg hb]
  generalize consume b (count b { s with idx := s.idx + 1 }) = y at h
  subst h
  cases r with
  | none => rfl
  | some b => cases b <;> rfl

/-- Reading two pieces. -/
theorem hrun_append (bs : List Byte) : ∀ (s : HdrParser) (cs : List Byte),
    hrun s (bs ++ cs) = match hrun s bs with
      | (.ok .more, s') => hrun s' cs
      | r => r := by
  induction bs with
  | nil => intro s cs; rfl
  | cons b bs ih =>
    intro s cs
    by_cases hb : b = 0
    · subst hb
      by_cases hz : s.zeroCount + 1 = 4
      · rw [List.cons_append, hrun_zero_throw hz, hrun_zero_throw hz]
      · rw [List.cons_append, hrun_zero hz, hrun_zero hz, ih]
    · obtain ⟨r, s', h, -⟩ := consume_off b 0 0 [] (count b { s with idx := s.idx + 1 })
      rw [List.cons_append, hrun_char _ hb h, hrun_char _ hb h]
      cases r with
      | none => exact ih _ _
      | some b => cases b <;> rfl

/-- The machine does not depend on the source. -/
theorem hrun_src (bs : List Byte) : ∀ (s : HdrParser) (x : List Byte),
    hrun { s with src := x } bs = ((hrun s bs).1, { (hrun s bs).2 with src := x }) := by
  induction bs with
  | nil => intro s x; rfl
  | cons b bs ih =>
    intro s x
    by_cases hb : b = 0
    · subst hb
      by_cases hz : s.zeroCount + 1 = 4
      · rw [hrun_zero_throw hz, hrun_zero_throw (s := { s with src := x }) hz]
      · rw [hrun_zero hz, hrun_zero (s := { s with src := x }) hz]
        exact ih { s with idx := s.idx + 1, zeroCount := s.zeroCount + 1 } x
    · obtain ⟨r, s', h, h2, hi, hz, -⟩ := consume_off b (s.idx + 1) 0 x (count b { s with idx := s.idx + 1 })
      have h3 : off (s.idx + 1) 0 x s' = { s' with src := x } := by
        have hi : s'.idx = s.idx + 1 := hi
        have hz : s'.zeroCount = 0 := hz
        unfold off; rw [← hi, ← hz]
      rw [h3] at h2
      rw [hrun_char _ hb h, hrun_char (s := { s with src := x }) _ hb h2]
      cases r with
      | none => exact ih _ _
      | some b => cases b <;> rfl

/-- The result of the call of `parse` for an outcome. -/
def toBool : Res Outcome → Res Bool
  | .ok .done => .ok true
  | .ok _ => .ok false
  | .stop e => .stop e

/-- What `nextLoop` does on the next byte. -/
theorem nextLoop_zero {k : Nat} {s : HdrParser} (h : s.src[s.idx]? = some 0) :
    nextLoop (k + 1) s = nextLoop k { s with idx := s.idx + 1, zeroCount := s.zeroCount + 1 } := by
  have hl : ¬ s.src.length ≤ s.idx := by
    intro hc; rw [List.getElem?_eq_none hc] at h; cases h
  conv => lhs; unfold nextLoop
  rw [M.bind_ok (M.get_run s), if_neg hl]
  simp only [h]
  rw [M.bind_ok (M.modify_run _ _), if_neg (by simp), M.bind_ok (M.modify_run _ _)]

theorem nextLoop_char {k : Nat} {s : HdrParser} {b : Byte} (hb : b ≠ 0) (h : s.src[s.idx]? = some b) :
    nextLoop (k + 1) s = (.ok b, count b { s with idx := s.idx + 1 }) := by
  have hl : ¬ s.src.length ≤ s.idx := by
    intro hc; rw [List.getElem?_eq_none hc] at h; cases h
  conv => lhs; unfold nextLoop
  rw [M.bind_ok (M.get_run s), if_neg hl]
  simp only [h]
  rw [M.bind_ok (M.modify_run _ _), if_pos (by simpa using hb), M.bind_ok (M.modify_run _ _)]
  rfl

theorem nextLoop_end {k : Nat} {s : HdrParser} (h : s.src.length ≤ s.idx) :
    nextLoop (k + 1) s = (.ok 0, s) := by
  conv => lhs; unfold nextLoop
  rw [M.bind_ok (M.get_run s), if_pos h]
  rfl

theorem nextChar_run (s : HdrParser) : nextChar s = nextLoop (4 - s.zeroCount) s := rfl

/-- `parse` after a NUL byte was read. -/
theorem parse_zero {n : Nat} {s : HdrParser} (hz : s.zeroCount < 4) (h : s.src[s.idx]? = some 0) :
    parse (n + 1) s = parse (n + 1) { s with idx := s.idx + 1, zeroCount := s.zeroCount + 1 } := by
  have : nextChar s = nextChar { s with idx := s.idx + 1, zeroCount := s.zeroCount + 1 } := by
    rw [nextChar_run, nextChar_run, show 4 - s.zeroCount = (4 - (s.zeroCount + 1)) + 1 by omega, nextLoop_zero h]
  unfold parse
  rw [M.bind_run, M.bind_run, this]

theorem parse_char {n : Nat} {s s' : HdrParser} {b : Byte} {r : Option Bool} (hz : s.zeroCount < 4) (hb : b ≠ 0)
    (h : s.src[s.idx]? = some b) (hc : consume b (count b { s with idx := s.idx + 1 }) = (.ok r, s')) :
    parse (n + 1) s = match r with
      | none => parse n s'
      | some b => (.ok b, s') := by
  conv => lhs; unfold parse
  rw [M.bind_ok (show nextChar s = _ by
    rw [nextChar_run, show 4 - s.zeroCount = (3 - s.zeroCount) + 1 by omega, nextLoop_char hb h]),
    if_neg hb, M.bind_ok hc]
  cases r <;> rfl

/-- `parse` is the machine on the bytes not yet read. -/
theorem parse_hrun (bs : List Byte) : ∀ {n : Nat} {s : HdrParser}, s.zeroCount < 4 → s.idx ≤ s.src.length →
    s.src.drop s.idx = bs → bs.length < n → parse n s = (toBool (hrun s bs).1, (hrun s bs).2) := by
  induction bs with
  | nil =>
    intro n s hz hi hd hn
    obtain ⟨n, rfl⟩ : ∃ m, n = m + 1 := ⟨n - 1, by have := hn; simp only [List.length_nil] at this; omega⟩
    have : s.src.length ≤ s.idx := by simpa using hd
    unfold parse
    rw [M.bind_ok (show nextChar s = (.ok 0, s) by
      rw [nextChar_run, show 4 - s.zeroCount = (3 - s.zeroCount) + 1 by omega, nextLoop_end this]), if_pos rfl]
    rfl
  | cons b bs ih =>
    intro n s hz hi hd hn
    obtain ⟨n, rfl⟩ : ∃ m, n = m + 1 := ⟨n - 1, by simp only [List.length_cons] at hn; omega⟩
    simp only [List.length_cons] at hn
    have hb : s.src[s.idx]? = some b := by
      have := congrArg (·[0]?) hd
      simpa using this
    have hd' : s.src.drop (s.idx + 1) = bs := by
      rw [← List.drop_drop, hd]; rfl
    have hi' : s.idx + 1 ≤ s.src.length := by
      have := congrArg List.length hd
      simp only [List.length_drop, List.length_cons] at this
      omega
    by_cases h0 : b = 0
    · subst h0
      rw [parse_zero hz hb]
      by_cases h4 : s.zeroCount + 1 = 4
      · rw [hrun_zero_throw h4]
        unfold parse
        rw [M.bind_stop (show nextChar _ = _ by rw [nextChar_run]; simp only [h4]; rfl)]
        simp only [toBool, h4]
      · rw [hrun_zero h4]
        exact ih (by simp only; omega) hi' hd' (by omega)
    · obtain ⟨r, s', h, -, e1, e2, e3, -⟩ := consume_off b 0 0 [] (count b { s with idx := s.idx + 1 })
      rw [parse_char hz h0 hb h, hrun_char bs h0 h]
      cases r with
      | none =>
        refine ih ?_ ?_ ?_ (by omega)
        · rw [e2]; simp [count]
        · rw [e1, e3]; exact hi'
        · rw [e1, e3]; exact hd'
      | some b => cases b <;> rfl

/-- Facts about the end of a run of the machine. -/
theorem hrun_facts (bs : List Byte) : ∀ (s : HdrParser), s.zeroCount < 4 →
    (∃ k, k ≤ bs.length ∧ (hrun s bs).2.idx = s.idx + k ∧ ((hrun s bs).1 = .ok .more → k = bs.length)) ∧
    (hrun s bs).2.src = s.src ∧
    ((hrun s bs).1 ≠ .ok .failed → (hrun s bs).2.lasterror = s.lasterror) ∧
    ((hrun s bs).1 = .ok .failed → (hrun s bs).2.lasterror ≠ "") ∧
    ((hrun s bs).1 = .ok .more → (hrun s bs).2.zeroCount < 4) ∧
    (∀ e, (hrun s bs).1 = .stop e → e = .throw .IllegalXmlHeader) := by
  induction bs with
  | nil =>
    intro s hz
    exact ⟨⟨0, Nat.le_refl _, rfl, fun _ => rfl⟩, rfl, fun _ => rfl, fun h => (nomatch h), fun _ => hz, fun e h => (nomatch h)⟩
  | cons b bs ih =>
    intro s hz
    by_cases h0 : b = 0
    · subst h0
      by_cases h4 : s.zeroCount + 1 = 4
      · rw [hrun_zero_throw h4]
        exact ⟨⟨1, by simp, rfl, fun h => nomatch h⟩, rfl, fun _ => rfl, fun h => (nomatch h), fun h => (nomatch h),
          fun e h => by cases h; rfl⟩
      · rw [hrun_zero h4]
        obtain ⟨⟨k, h1, h2, h3⟩, h5⟩ := ih { s with idx := s.idx + 1, zeroCount := s.zeroCount + 1 }
          (by simp only; omega)
        exact ⟨⟨k + 1, by simp only [List.length_cons]; omega, by rw [h2]; simp only; omega,
          fun h => by rw [h3 h]; rfl⟩, h5⟩
    · obtain ⟨r, s', h, -, e1, e2, e3, e4, e5, -⟩ := consume_off b 0 0 [] (count b { s with idx := s.idx + 1 })
      rw [hrun_char bs h0 h]
      cases r with
      | none =>
        obtain ⟨⟨k, h1, h2, h3⟩, h5, h6, h7⟩ := ih s' (by rw [e2]; simp [count])
        refine ⟨⟨k + 1, by simp only [List.length_cons]; omega, ?_, fun h => by rw [h3 h]; rfl⟩, h5.trans e3,
          fun h => (h6 h).trans (e4 (by simp)), h7⟩
        show (hrun s' bs).2.idx = _
        rw [h2, e1]; simp only [count]; omega
      | some b =>
        cases b with
        | true =>
          exact ⟨⟨1, by simp, e1, fun h => nomatch h⟩, e3, fun _ => e4 (by simp), fun h => (nomatch h), fun h => (nomatch h),
            fun e h => (nomatch h)⟩
        | false =>
          exact ⟨⟨1, by simp, e1, fun h => nomatch h⟩, e3, fun h => absurd rfl h, fun _ => e5 rfl, fun h => (nomatch h),
            fun e h => (nomatch h)⟩

/-- The loop of a caller is the machine on all bytes; only the source held differs. -/
theorem feed_hrun {n : Nat} (parts : List (List Byte)) : ∀ (s : HdrParser), s.zeroCount < 4 → s.idx = s.src.length →
    s.lasterror = "" → parts.flatten.length < n →
    ∃ x y, s.src ++ parts.flatten = x ++ y ∧ (feed n parts s).1 = (hrun s parts.flatten).1 ∧
      (feed n parts s).2 = { (hrun s parts.flatten).2 with src := x } ∧ (feed n parts s).2.idx ≤ x.length := by
  induction parts with
  | nil => intro s hz hi hl hn; exact ⟨s.src, [], by simp, rfl, rfl, by rw [← hi]; exact Nat.le_refl _⟩
  | cons c cs ih =>
    intro s hz hi hl hn
    simp only [List.flatten_cons, List.length_append] at hn
    unfold feed
    rw [M.bind_ok (show putInput c s = (.ok (), { s with src := s.src ++ c }) from rfl)]
    have hp := parse_hrun (n := n) (s := { s with src := s.src ++ c }) c hz (by
      simp only [List.length_append]; omega) (by simp only; rw [hi, List.drop_left]) (by omega)
    obtain ⟨⟨k, h1, h2, h3⟩, h4, h5, h6, h7, h8⟩ := hrun_facts c { s with src := s.src ++ c } hz
    have hsrc := hrun_src c s (s.src ++ c)
    rw [M.bind_run, hp]
    rw [List.flatten_cons, hrun_append]
    have hk : (hrun { s with src := s.src ++ c } c).2.idx ≤ (s.src ++ c).length := by
      rw [h2]; simp only [List.length_append]; omega
    rcases hr : hrun s c with ⟨r, s1⟩
    rw [hr] at hsrc
    rw [hsrc] at h2 h3 h4 h5 h6 h7 h8 hk ⊢
    simp only at h2 h3 h4 h5 h6 h7 h8 hk ⊢
    cases r with
    | stop e =>
      exact ⟨s.src ++ c, cs.flatten, by simp, rfl, rfl, hk⟩
    | ok o =>
      cases o with
      | done =>
        exact ⟨s.src ++ c, cs.flatten, by simp, rfl, rfl, hk⟩
      | failed =>
        have := h6 rfl
        simp only [toBool]
        rw [M.bind_ok (M.get_run _), if_neg (by simp), if_pos (by simp [getLasterror, this])]
        exact ⟨s.src ++ c, cs.flatten, by simp, rfl, rfl, hk⟩
      | more =>
        have := h5 (by simp)
        simp only [toBool]
        rw [M.bind_ok (M.get_run _), if_neg (by simp), if_neg (by simp [getLasterror, this, hl])]
        obtain ⟨x, y, g1, g2, g3, g4⟩ := ih { s1 with src := s.src ++ c } (h7 rfl) (by
          simp only [List.length_append]; rw [h2, h3 rfl, hi]) (by simp only; rw [this, hl]) (by omega)
        rw [hrun_src] at g2 g3
        exact ⟨x, y, by rw [← g1]; simp, g2, g3, g4⟩

/-! ## Runs of NUL bytes -/

/-- The bytes read so far, the last one first, start with exactly `z` NUL bytes, and there are no
four NUL bytes in a row. -/
def Tail (z : Nat) (acc : List Byte) : Prop :=
  z < 4 ∧ ¬ FourNulls acc ∧ ∃ q, acc = List.replicate z 0 ++ q ∧ q.head? ≠ some 0

theorem fourNulls_cons {b : Byte} {acc : List Byte} :
    FourNulls (b :: acc) ↔ [0, 0, 0, 0] <+: b :: acc ∨ FourNulls acc := List.infix_cons_iff

theorem Tail.char {z : Nat} {acc : List Byte} {b : Byte} (h : Tail z acc) (hb : b ≠ 0) : Tail 0 (b :: acc) := by
  refine ⟨by omega, ?_, b :: acc, rfl, by simpa using hb⟩
  rw [fourNulls_cons]
  rintro (hc | hc)
  · obtain ⟨t, ht⟩ := hc
    cases ht
    exact hb rfl
  · exact h.2.1 hc

theorem Tail.zero {z : Nat} {acc : List Byte} (h : Tail z acc) (hz : z + 1 ≠ 4) : Tail (z + 1) (0 :: acc) := by
  obtain ⟨h1, h2, q, h3, h4⟩ := h
  refine ⟨by omega, ?_, q, by rw [h3]; rfl, h4⟩
  rw [fourNulls_cons]
  rintro (⟨t, ht⟩ | hc)
  · rw [h3] at ht
    have : z = 0 ∨ z = 1 ∨ z = 2 := by omega
    rcases this with rfl | rfl | rfl
    all_goals
      cases q with
      | nil => simp [List.replicate] at ht
      | cons a q =>
        simp [List.replicate] at ht h4
        exact h4 ht.1.symm
  · exact h2 hc

theorem Tail.four {z : Nat} {acc : List Byte} (h : Tail z acc) (hz : z + 1 = 4) : FourNulls (0 :: acc) := by
  obtain ⟨h1, h2, q, h3, h4⟩ := h
  obtain rfl : z = 3 := by omega
  rw [h3]
  exact ⟨[], q, rfl⟩

theorem fourNulls_reverse {l : List Byte} : FourNulls l.reverse ↔ FourNulls l := by
  unfold FourNulls
  constructor
  · intro h
    have := List.reverse_infix.2 h
    simpa using this
  · intro h
    have := List.reverse_infix.2 h
    simpa using this

/-- The machine throws exactly when it has read four NUL bytes in a row. -/
theorem hrun_nulls (bs : List Byte) : ∀ (s : HdrParser) (acc : List Byte), Tail s.zeroCount acc →
    ∃ k, (hrun s bs).2.idx = s.idx + k ∧ k ≤ bs.length ∧
      ((hrun s bs).1 = .stop (.throw .IllegalXmlHeader) ↔ FourNulls ((bs.take k).reverse ++ acc)) := by
  induction bs with
  | nil => intro s acc h; exact ⟨0, rfl, Nat.le_refl _, ⟨fun h => (nomatch h), fun hc => absurd hc h.2.1⟩⟩
  | cons b bs ih =>
    intro s acc h
    by_cases h0 : b = 0
    · subst h0
      by_cases h4 : s.zeroCount + 1 = 4
      · rw [hrun_zero_throw h4]
        exact ⟨1, rfl, by simp, fun _ => by simpa using h.four h4, fun _ => rfl⟩
      · rw [hrun_zero h4]
        obtain ⟨k, h1, h2, h3⟩ := ih { s with idx := s.idx + 1, zeroCount := s.zeroCount + 1 } (0 :: acc) (h.zero h4)
        refine ⟨k + 1, by rw [h1]; simp only; omega, by simp only [List.length_cons]; omega, ?_⟩
        rw [h3]
        simp
    · obtain ⟨r, s', hc, -, e1, e2, -⟩ := consume_off b 0 0 [] (count b { s with idx := s.idx + 1 })
      rw [hrun_char bs h0 hc]
      have ht : Tail 0 (b :: acc) := h.char h0
      cases r with
      | none =>
        obtain ⟨k, h1, h2, h3⟩ := ih s' (b :: acc) (by rw [e2]; exact ht)
        refine ⟨k + 1, ?_, by simp only [List.length_cons]; omega, ?_⟩
        · show (hrun s' bs).2.idx = _
          rw [h1, e1]; simp only [count]; omega
        · show (hrun s' bs).1 = _ ↔ _
          rw [h3]
          simp
      | some b2 =>
        cases b2 <;> exact ⟨1, e1, by simp, fun h => (nomatch h), fun hc => absurd (by simpa using hc) ht.2.1⟩

theorem hrun_new_nulls (bs : List Byte) : ∃ k, (hrun new bs).2.idx = k ∧ k ≤ bs.length ∧
    ((hrun new bs).1 = .stop (.throw .IllegalXmlHeader) ↔ FourNulls (bs.take k)) := by
  obtain ⟨k, h1, h2, h3⟩ := hrun_nulls bs new [] ⟨by decide, by
    rintro ⟨p, q, h⟩; simp at h, [], rfl, by simp⟩
  refine ⟨k, by rw [h1]; simp [new], h2, ?_⟩
  rw [h3, List.append_nil, fourNulls_reverse]

/-! ## The machine on characters -/

/-- The machine on characters. -/
def crun (s : HdrParser) : List Byte → Res Outcome × HdrParser
  | [] => (.ok .more, s)
  | b :: bs => match consume b (count b s) with
      | (.ok none, s') => crun s' bs
      | (.ok (some true), s') => (.ok .done, s')
      | (.ok (some false), s') => (.ok .failed, s')
      | (.stop e, s') => (.stop e, s')

/-- Equal but for the position and the number of NUL bytes. -/
def Alike (s t : HdrParser) : Prop := off 0 0 [] s = off 0 0 [] t

theorem alike_count {s t : HdrParser} (b : Byte) (h : Alike s t) :
    Alike (count b { s with idx := s.idx + 1 }) (count b t) := by
  unfold Alike off count at *
  simp only [HdrParser.mk.injEq] at h ⊢
  obtain ⟨h1, h2, -, h4, -, h6, -, h8, h9⟩ := h
  refine ⟨h1, h2, trivial, ?_, trivial, h6, trivial, h8, h9⟩
  rw [h4]

theorem consume_alike {s t : HdrParser} (b : Byte) (h : Alike s t) :
    ∃ r s' t', consume b s = (.ok r, s') ∧ consume b t = (.ok r, t') ∧ Alike s' t' ∧ s'.zeroCount = s.zeroCount := by
  obtain ⟨r, s', h1, h2, -, hz, -⟩ := consume_off b 0 0 [] s
  obtain ⟨r', t', h3, h4, -⟩ := consume_off b 0 0 [] t
  have h6 : consume b (off 0 0 [] s) = consume b (off 0 0 [] t) := congrArg (consume b) h
  have h4 := h2.symm.trans (h6.trans h4)
  simp only [Prod.mk.injEq, Res.ok.injEq] at h4
  obtain ⟨rfl, h5⟩ := h4
  exact ⟨r, s', t', h1, h3, h5, hz⟩

theorem hrun_zeros (k : Nat) : ∀ (s : HdrParser) (bs : List Byte), s.zeroCount + k < 4 →
    hrun s (List.replicate k 0 ++ bs) = hrun { s with idx := s.idx + k, zeroCount := s.zeroCount + k } bs := by
  induction k with
  | zero => intro s bs _; rfl
  | succ k ih =>
    intro s bs h
    rw [List.replicate_succ, List.cons_append, hrun_zero (by omega), ih _ _ (by simp only; omega)]
    simp only
    rw [show s.idx + 1 + k = s.idx + (k + 1) by omega, show s.zeroCount + 1 + k = s.zeroCount + (k + 1) by omega]

/-- Zero bytes around the characters make no difference. -/
theorem hrun_padded {before after : Nat} (hp : before + after ≤ 3) (rest : List Byte) (l : List Byte) :
    ∀ {s t : HdrParser}, s.zeroCount ≤ after → Alike s t → (∀ b ∈ l, b ≠ 0) → (crun t l).1 ≠ .ok .more →
    (hrun s (l.flatMap (padded before after) ++ rest)).1 = (crun t l).1 ∧
      Alike (hrun s (l.flatMap (padded before after) ++ rest)).2 (crun t l).2 := by
  induction l with
  | nil => intro s t _ _ _ h; exact absurd rfl h
  | cons b l ih =>
    intro s t hz ha hl hm
    have hb : b ≠ 0 := hl b (List.mem_cons_self ..)
    have e : (b :: l).flatMap (padded before after) ++ rest =
        List.replicate before 0 ++ b :: (List.replicate after 0 ++ (l.flatMap (padded before after) ++ rest)) := by
      simp [padded]
    rw [e, hrun_zeros before _ _ (by omega)]
    have ha2 : Alike { s with idx := s.idx + before, zeroCount := s.zeroCount + before } t := ha
    obtain ⟨r, s', t', h1, h2, h3, h4⟩ := consume_alike b (alike_count b ha2)
    rw [hrun_char _ hb h1]
    have hz' : s'.zeroCount = 0 := h4
    unfold crun at hm ⊢
    rw [h2] at hm ⊢
    cases r with
    | some b => cases b <;> exact ⟨rfl, h3⟩
    | none =>
      simp only [cont]
      rw [hrun_zeros after _ _ (by omega)]
      exact ih (by simp only; omega) h3 (fun b hb => hl b (List.mem_cons_of_mem _ hb)) hm

/-! ## Declarations -/

/-- Reading `x` leads from `t` to `t'`. -/
def Goes (t : HdrParser) (x : List Byte) (t' : HdrParser) : Prop := ∀ bs, crun t (x ++ bs) = crun t' bs

theorem Goes.trans {t t' t'' : HdrParser} {x y : List Byte} (h : Goes t x t') (h' : Goes t' y t'') :
    Goes t (x ++ y) t'' := fun bs => by rw [List.append_assoc, h, h']

theorem Goes.nil (t : HdrParser) : Goes t [] t := fun _ => rfl

theorem Goes.char {t t' : HdrParser} {b : Byte} (h : consume b (count b t) = (.ok none, t')) : Goes t [b] t' := by
  intro bs
  show crun t (b :: bs) = _
  unfold crun
  rw [h]
  cases bs <;> rfl

/-- The number of characters counted. -/
def inked (x : List Byte) : Nat := (x.filter (32 < ·)).length

theorem count_eq (b : Byte) (t : HdrParser) : count b t = { t with zeroCount := 0, charsConsumed := t.charsConsumed + inked [b] } := by
  unfold count inked
  by_cases h : 32 < b
  · simp [h]
  · simp [h]

/-- The state within a declaration. -/
def at_ (st : HdrState) (aty : HdrAttr) (it en : List Byte) (cc : Nat) : HdrParser :=
  { state := st, attributetype := aty, item := it, encoding := en, charsConsumed := cc }

theorem count_at (b : Byte) (st : HdrState) (aty : HdrAttr) (it en : List Byte) (cc : Nat) :
    ∃ cc', count b (at_ st aty it en cc) = at_ st aty it en cc' := ⟨_, by rw [count_eq]; rfl⟩

/-- White space is skipped in all states but those that read a name or a value. -/
theorem goes_blank {st : HdrState} (hst : st = .Init ∨ st = .ParseXmlOpen ∨ st = .FindAttributeName ∨
    st = .FindAttributeAssign ∨ st = .FindAttributeValue) (aty : HdrAttr) (it en : List Byte) (x : List Byte) :
    ∀ (cc : Nat), Blank x → ∃ cc', Goes (at_ st aty it en cc) x (at_ st aty it en cc') := by
  induction x with
  | nil => intro cc _; exact ⟨cc, Goes.nil _⟩
  | cons b x ih =>
    intro cc hx
    obtain ⟨h1, h2⟩ := hx b (List.mem_cons_self ..)
    obtain ⟨c1, hc⟩ := count_at b st aty it en cc
    obtain ⟨c2, h⟩ := ih c1 fun c hc => hx c (List.mem_cons_of_mem _ hc)
    refine ⟨c2, Goes.trans (x := [b]) (Goes.char ?_) h⟩
    rw [hc]
    unfold consume
    rw [M.bind_ok (M.get_run _)]
    rcases hst with rfl | rfl | rfl | rfl | rfl
    · simp only [switch, at_]
      rw [if_neg (by omega), if_pos h2]; rfl
    · simp only [switch, at_]
      rw [if_neg (by omega), if_pos h2]; rfl
    · simp only [switch, at_]
      rw [if_pos h2]; rfl
    · simp only [switch, at_]
      rw [if_neg (by omega), if_pos h2]; rfl
    · simp only [switch, at_]
      rw [if_neg (by omega), if_neg (by omega), if_pos h2]; rfl

/-- A value is collected. -/
theorem goes_value (d : Bool) (aty : HdrAttr) (en : List Byte) (x : List Byte) : ∀ (it : List Byte) (cc : Nat),
    (∀ c ∈ x, c ≠ if d then 34 else 39) → ∃ cc',
    Goes (at_ (if d then .ParseAttributeValueDq else .ParseAttributeValueSq) aty it en cc) x
      (at_ (if d then .ParseAttributeValueDq else .ParseAttributeValueSq) aty (it ++ x) en cc') := by
  induction x with
  | nil => intro it cc _; exact ⟨cc, by rw [List.append_nil]; exact Goes.nil _⟩
  | cons b x ih =>
    intro it cc hx
    have hb := hx b (List.mem_cons_self ..)
    obtain ⟨c1, hc⟩ := count_at b (if d then .ParseAttributeValueDq else .ParseAttributeValueSq) aty it en cc
    obtain ⟨c2, h⟩ := ih (it ++ [b]) c1 fun c hc => hx c (List.mem_cons_of_mem _ hc)
    rw [show it ++ b :: x = (it ++ [b]) ++ x by simp]
    refine ⟨c2, Goes.trans (x := [b]) (Goes.char ?_) h⟩
    rw [hc]
    unfold consume
    rw [M.bind_ok (M.get_run _)]
    cases d
    · simp only [switch, at_]
      have hb : b ≠ 39 := hb
      simp only [Bool.false_eq_true, if_false]
      rw [if_neg hb]; rfl
    · simp only [switch, at_]
      have hb : b ≠ 34 := hb
      simp only [if_true]
      rw [if_neg hb]; rfl

/-- The attribute type of a name. -/
def typeOf : DeclName → HdrAttr
  | .encoding => .Encoding
  | .version => .Version
  | .standalone => .Standalone

theorem goes_name (nm : DeclName) (aty : HdrAttr) (en : List Byte) (cc : Nat) : ∃ cc',
    Goes (at_ .FindAttributeName aty [] en cc) nm.text (at_ .ParseAttributeName aty nm.text en cc') := by
  refine ⟨cc + nm.text.length, fun bs => ?_⟩
  cases nm <;> rfl

theorem goes_endName (nm : DeclName) (aty : HdrAttr) (en : List Byte) (cc : Nat) (b : Byte) (hb : b ≤ 32 ∨ b = 61) :
    ∃ cc', Goes (at_ .ParseAttributeName aty nm.text en cc) [b]
      (at_ (if b = 61 then .FindAttributeValue else .FindAttributeAssign) (typeOf nm) [] en cc') := by
  obtain ⟨c1, hc⟩ := count_at b .ParseAttributeName aty nm.text en cc
  refine ⟨c1, Goes.char ?_⟩
  rw [hc]
  unfold consume
  rw [M.bind_ok (M.get_run _)]
  simp only [switch, at_]
  rw [if_pos hb]
  cases nm <;> rfl

/-- The assignment sign with white space around. -/
theorem goes_assign (nm : DeclName) (aty : HdrAttr) (en : List Byte) (cc : Nat) (w1 w2 : List Byte) (h1 : Blank w1)
    (h2 : Blank w2) : ∃ cc', Goes (at_ .ParseAttributeName aty nm.text en cc) (w1 ++ [61] ++ w2)
      (at_ .FindAttributeValue (typeOf nm) [] en cc') := by
  have key : ∃ c1, Goes (at_ .ParseAttributeName aty nm.text en cc) (w1 ++ [61])
      (at_ .FindAttributeValue (typeOf nm) [] en c1) := by
    cases w1 with
    | nil => exact goes_endName nm aty en cc 61 (.inr rfl)
    | cons b w1 =>
      have hb := h1 b (List.mem_cons_self ..)
      obtain ⟨c1, g1⟩ := goes_endName nm aty en cc b (.inl hb.2)
      rw [if_neg (by omega)] at g1
      obtain ⟨c2, g2⟩ := goes_blank (st := .FindAttributeAssign) (by simp) (typeOf nm) [] en w1 c1
        fun c hc => h1 c (List.mem_cons_of_mem _ hc)
      refine ⟨c2 + 1, ?_⟩
      have := (g1.trans g2).trans (t'' := at_ .FindAttributeValue (typeOf nm) [] en (c2 + 1)) (y := [61]) fun bs => rfl
      exact this
  obtain ⟨c1, g1⟩ := key
  obtain ⟨c2, g2⟩ := goes_blank (st := .FindAttributeValue) (by simp) (typeOf nm) [] en w2 c1 h2
  exact ⟨c2, g1.trans g2⟩

/-- The encoding after an attribute. -/
def encAfter (a : DeclAttr) (en : List Byte) : List Byte := if a.name = .encoding then a.value else en

theorem goes_attr (a : DeclAttr) (ha : a.Plain) (aty : HdrAttr) (en : List Byte) (cc : Nat) : ∃ aty' cc',
    Goes (at_ .FindAttributeName aty [] en cc) a.text (at_ .FindAttributeName aty' [] (encAfter a en) cc') := by
  obtain ⟨nm, w1, w2, d, v, w3⟩ := a
  obtain ⟨c1, g1⟩ := goes_name nm aty en cc
  obtain ⟨c2, g2⟩ := goes_assign nm aty en c1 w1 w2 ha.ws1 ha.ws2
  have g3 : Goes (at_ .FindAttributeValue (typeOf nm) [] en c2) [if d then 34 else 39]
      (at_ (if d then .ParseAttributeValueDq else .ParseAttributeValueSq) (typeOf nm) [] en (c2 + 1)) := by
    cases d <;> exact fun bs => rfl
  obtain ⟨c4, g4⟩ := goes_value d (typeOf nm) en v [] (c2 + 1) fun c hc => (ha.value c hc).2
  have g5 : Goes (at_ (if d then .ParseAttributeValueDq else .ParseAttributeValueSq) (typeOf nm) v en c4)
      [if d then 34 else 39]
      (at_ .FindAttributeName (typeOf nm) [] (encAfter ⟨nm, w1, w2, d, v, w3⟩ en) (c4 + 1)) := by
    cases d <;> cases nm <;> exact fun bs => rfl
  obtain ⟨c6, g6⟩ := goes_blank (st := .FindAttributeName) (by simp) (typeOf nm) [] (encAfter ⟨nm, w1, w2, d, v, w3⟩ en)
    w3 (c4 + 1) ha.ws3
  refine ⟨typeOf nm, c6, ?_⟩
  have := ((((g1.trans g2).trans g3).trans g4).trans g5).trans g6
  simpa [DeclAttr.text, DeclAttr.quote] using this

/-- The encoding after attributes. -/
def encAfters (attrs : List DeclAttr) (en : List Byte) : List Byte := attrs.foldl (fun en a => encAfter a en) en

theorem goes_attrs (attrs : List DeclAttr) : ∀ (aty : HdrAttr) (en : List Byte) (cc : Nat), (∀ a ∈ attrs, a.Wf) →
    ∃ aty' cc', Goes (at_ .FindAttributeName aty [] en cc) (attrs.flatMap DeclAttr.text)
      (at_ .FindAttributeName aty' [] (encAfters attrs en) cc') := by
  induction attrs with
  | nil => intro aty en cc _; exact ⟨aty, cc, Goes.nil _⟩
  | cons a attrs ih =>
    intro aty en cc h
    obtain ⟨a1, c1, g1⟩ := goes_attr a (h a (List.mem_cons_self ..)).plain aty en cc
    obtain ⟨a2, c2, g2⟩ := ih a1 (encAfter a en) c1 fun a ha => h a (List.mem_cons_of_mem _ ha)
    exact ⟨a2, c2, g1.trans g2⟩

theorem crun_decl {ws0 ws1 ws2 : List Byte} {attrs : List DeclAttr} (h0 : Blank ws0) (h1 : Blank ws1)
    (h2 : Blank ws2) (hw : ws2 ≠ []) (ha : ∀ a ∈ attrs, a.Wf) : ∃ aty cc,
    crun new (declText ws0 ws1 ws2 attrs) = (.ok .done, at_ .FindAttributeName aty [] (encAfters attrs []) cc) := by
  obtain ⟨c0, g0⟩ := goes_blank (st := .Init) (by simp) .Encoding [] [] ws0 0 h0
  have g1 : Goes (at_ .Init .Encoding [] [] c0) [60] (at_ .ParseXmlOpen .Encoding [] [] (c0 + 1)) := fun bs => rfl
  obtain ⟨c2, g2⟩ := goes_blank (st := .ParseXmlOpen) (by simp) .Encoding [] [] ws1 (c0 + 1) h1
  have g3 : Goes (at_ .ParseXmlOpen .Encoding [] [] c2) [63, 120, 109, 108]
      (at_ .ParseXmlHdr .Encoding [120, 109, 108] [] (c2 + 4)) := fun bs => rfl
  cases ws2 with
  | nil => exact absurd rfl hw
  | cons b ws2 =>
    have hb := h2 b (List.mem_cons_self ..)
    obtain ⟨c4, hc⟩ := count_at b .ParseXmlHdr .Encoding [120, 109, 108] [] (c2 + 4)
    have g4 : Goes (at_ .ParseXmlHdr .Encoding [120, 109, 108] [] (c2 + 4)) [b]
        (at_ .FindAttributeName .Encoding [] [] c4) := by
      refine Goes.char ?_
      rw [hc]
      unfold consume
      rw [M.bind_ok (M.get_run _)]
      simp only [switch, at_]
      rw [if_pos (.inl hb.2), if_neg (by omega)]
      rfl
    obtain ⟨c5, g5⟩ := goes_blank (st := .FindAttributeName) (by simp) .Encoding [] [] ws2 c4
      fun c hc => h2 c (List.mem_cons_of_mem _ hc)
    obtain ⟨a6, c6, g6⟩ := goes_attrs attrs .Encoding [] c5 ha
    refine ⟨a6, c6 + 1, ?_⟩
    have := ((((((g0.trans g1).trans g2).trans g3).trans g4).trans g5).trans g6) [63]
    have e : declText ws0 ws1 (b :: ws2) attrs =
        ws0 ++ [60] ++ ws1 ++ [63, 120, 109, 108] ++ [b] ++ ws2 ++ attrs.flatMap DeclAttr.text ++ [63] := by
      simp [declText]
    rw [e]
    exact this

/-- The encoding found is the one declared. -/
theorem encAfters_spec (attrs : List DeclAttr) (ha : ∀ a ∈ attrs, a.Wf) :
    (if encAfters attrs [] = [] then none else some (encAfters attrs [])) = declEncoding attrs := by
  have key : ∀ (attrs : List DeclAttr) (en : List Byte), encAfters attrs en =
      ((attrs.filter (·.name = .encoding)).getLast?.map (·.value)).getD en := by
    intro attrs
    induction attrs with
    | nil => intro en; rfl
    | cons a attrs ih =>
      intro en
      show encAfters attrs (encAfter a en) = _
      rw [ih, List.filter_cons]
      by_cases h : a.name = .encoding
      · rw [if_pos (by simpa using h), List.getLast?_cons]
        simp only [encAfter, if_pos h]
        cases (attrs.filter (·.name = .encoding)).getLast? <;> rfl
      · rw [if_neg (by simpa using h)]
        simp only [encAfter, if_neg h]
  rw [key]
  unfold declEncoding
  cases h : (attrs.filter (·.name = .encoding)).getLast? with
  | none => rfl
  | some a =>
    have hm := List.mem_filter.1 (List.mem_of_getLast? h)
    have := (ha a hm.1).enc (by simpa using hm.2)
    simp [this]

theorem inked_cons (b : Byte) (x : List Byte) : inked (b :: x) = inked [b] + inked x := by
  unfold inked
  by_cases h : 32 < b <;> simp [h]
  omega

/-- The characters counted. -/
theorem hrun_count (bs : List Byte) : ∀ (s : HdrParser), ∃ k, (hrun s bs).2.idx = s.idx + k ∧
    (hrun s bs).2.charsConsumed = s.charsConsumed + inked (bs.take k) := by
  induction bs with
  | nil => intro s; exact ⟨0, rfl, rfl⟩
  | cons b bs ih =>
    intro s
    by_cases h0 : b = 0
    · subst h0
      by_cases h4 : s.zeroCount + 1 = 4
      · rw [hrun_zero_throw h4]
        exact ⟨1, rfl, rfl⟩
      · rw [hrun_zero h4]
        obtain ⟨k, h1, h2⟩ := ih { s with idx := s.idx + 1, zeroCount := s.zeroCount + 1 }
        refine ⟨k + 1, by rw [h1]; simp only; omega, ?_⟩
        rw [h2, List.take_succ_cons, inked_cons]
        simp [inked]
    · obtain ⟨r, s', hc, -, e1, -, -, -, -, e2⟩ := consume_off b 0 0 [] (count b { s with idx := s.idx + 1 })
      rw [hrun_char bs h0 hc]
      rw [count_eq] at e1 e2
      simp only at e1 e2
      cases r with
      | none =>
        obtain ⟨k, h1, h2⟩ := ih s'
        refine ⟨k + 1, ?_, ?_⟩
        · show (hrun s' bs).2.idx = _
          rw [h1, e1]; omega
        · show (hrun s' bs).2.charsConsumed = _
          rw [h2, List.take_succ_cons, inked_cons, e2]; omega
      | some b2 =>
        cases b2 <;> exact ⟨1, e1, by show s'.charsConsumed = _; rw [e2, List.take_succ_cons, inked_cons]; simp [inked]⟩

/-! ## Copies -/

/-- Set the parts that are not copied. -/
def res (en : List Byte) (le : String) (s : HdrParser) : HdrParser := { s with encoding := en, lasterror := le }

/-- Equal but for the parts that are not copied. -/
def Twin (s t : HdrParser) : Prop := res [] "" s = res [] "" t

/-- Code whose result does not depend on the parts that are not copied. -/
def Same {α : Type} (x : M HdrParser α) : Prop := ∀ s t, Twin s t → (x s).1 = (x t).1 ∧ Twin (x s).2 (x t).2

theorem Twin.fields {s t : HdrParser} (h : Twin s t) : s.state = t.state ∧ s.attributetype = t.attributetype ∧
    s.idx = t.idx ∧ s.charsConsumed = t.charsConsumed ∧ s.zeroCount = t.zeroCount ∧ s.item = t.item ∧ s.src = t.src := by
  unfold Twin res at h
  simp only [HdrParser.mk.injEq] at h
  obtain ⟨h1, h2, h3, h4, h5, h6, h7, -, -⟩ := h
  exact ⟨h1, h2, h3, h4, h5, h6, h7⟩

theorem Twin.mk {s t : HdrParser} (h : s.state = t.state ∧ s.attributetype = t.attributetype ∧
    s.idx = t.idx ∧ s.charsConsumed = t.charsConsumed ∧ s.zeroCount = t.zeroCount ∧ s.item = t.item ∧ s.src = t.src) :
    Twin s t := by
  unfold Twin res
  simp only [HdrParser.mk.injEq]
  exact ⟨h.1, h.2.1, h.2.2.1, h.2.2.2.1, h.2.2.2.2.1, h.2.2.2.2.2.1, h.2.2.2.2.2.2, trivial, trivial⟩

theorem Same.pure {α : Type} (a : α) : Same (Pure.pure a) := fun _ _ h => ⟨rfl, h⟩

theorem Same.stop {α : Type} (e : Stop) : Same (M.stop e : M HdrParser α) := fun _ _ h => ⟨rfl, h⟩

theorem Same.bind {α β : Type} {x : M HdrParser α} {f : α → M HdrParser β} (hx : Same x) (hf : ∀ a, Same (f a)) :
    Same (x >>= f) := by
  intro s t h
  rw [M.bind_run, M.bind_run]
  obtain ⟨h1, h2⟩ := hx s t h
  rcases hs : x s with ⟨r, s'⟩
  rcases ht : x t with ⟨r', t'⟩
  rw [hs, ht] at h1 h2
  obtain rfl : r = r' := h1
  cases r with
  | ok a => exact hf a s' t' h2
  | stop e => exact ⟨rfl, h2⟩

theorem Same.modify {f : HdrParser → HdrParser} (h : ∀ s t, Twin s t → Twin (f s) (f t)) : Same (M.modify f) :=
  fun s t ht => ⟨rfl, h s t ht⟩

theorem Same.ite {α : Type} {c : Prop} [Decidable c] {x y : M HdrParser α} (hx : Same x) (hy : Same y) :
    Same (if c then x else y) := by
  by_cases h : c
  · rw [if_pos h]; exact hx
  · rw [if_neg h]; exact hy

theorem Same.fail (m : String) : Same (fail m) :=
  Same.bind (Same.modify fun _ _ h => Twin.mk h.fields) fun _ => Same.pure _

theorem Same.go {f : HdrParser → HdrParser} (h : ∀ s t, Twin s t → Twin (f s) (f t)) : Same (go f) :=
  Same.bind (Same.modify h) fun _ => Same.pure _

/-- The code may look at the object. -/
theorem Same.get {α : Type} {f : HdrParser → M HdrParser α} (h1 : ∀ s t, Twin s t → f s = f t) (h2 : ∀ s, Same (f s)) :
    Same (M.get >>= f) := by
  intro s t h
  rw [M.bind_ok (M.get_run s), M.bind_ok (M.get_run t), h1 s t h]
  exact h2 t s t h

theorem nextLoop_same (k : Nat) : Same (nextLoop k) := by
  induction k with
  | zero => exact Same.stop _
  | succ k ih =>
    unfold nextLoop
    refine Same.get (fun s t h => ?_) fun s => ?_
    · obtain ⟨-, -, h3, -, -, -, h7⟩ := h.fields
      rw [h3, h7]
    · refine Same.ite (Same.pure _) ?_
      cases s.src[s.idx]? with
      | none => exact Same.stop _
      | some ch =>
        refine Same.bind (Same.modify fun s t h => ?_) fun _ => Same.ite ?_ ?_
        · obtain ⟨h1, h2, h3, h4, h5, h6, h7⟩ := h.fields
          exact Twin.mk ⟨h1, h2, by rw [h3], h4, h5, h6, h7⟩
        · refine Same.bind (Same.modify fun s t h => ?_) fun _ => Same.pure _
          obtain ⟨h1, h2, h3, h4, h5, h6, h7⟩ := h.fields
          exact Twin.mk ⟨h1, h2, h3, by rw [h4], rfl, h6, h7⟩
        · refine Same.bind (Same.modify fun s t h => ?_) fun _ => ih
          obtain ⟨h1, h2, h3, h4, h5, h6, h7⟩ := h.fields
          exact Twin.mk ⟨h1, h2, h3, h4, by rw [h5], h6, h7⟩

theorem switch_same (ch : Byte) (s : HdrParser) : Same (switch ch s) := by
  obtain ⟨st, aty, ix, cc, zc, it, sr, en, le⟩ := s
  cases st
  all_goals simp only [switch, endName]
  all_goals
    repeat' first
      | exact Same.pure _
      | exact Same.fail _
      | exact Same.go fun s t h => by
          obtain ⟨h1, h2, h3, h4, h5, h6, h7⟩ := h.fields
          refine Twin.mk ⟨?_, ?_, ?_, ?_, ?_, ?_, ?_⟩ <;> first | rfl | assumption | (simp only; rw [h6])
      | exact Same.bind (Same.modify fun s t h => by
          obtain ⟨h1, h2, h3, h4, h5, h6, h7⟩ := h.fields
          exact Twin.mk ⟨h1, h2, h3, h4, h5, rfl, h7⟩) fun _ => Same.pure _
      | apply Same.ite

theorem switch_twin (ch : Byte) {s t : HdrParser} (h : Twin s t) : switch ch s = switch ch t := by
  obtain ⟨h1, -, -, -, -, h6, -⟩ := h.fields
  unfold switch endName
  rw [h1, h6]

theorem parse_same (n : Nat) : Same (parse n) := by
  induction n with
  | zero => exact Same.stop _
  | succ n ih =>
    unfold parse
    refine Same.bind ?_ fun ch => Same.ite (Same.pure _) (Same.bind ?_ fun r => ?_)
    · refine Same.get (fun s t h => ?_) fun s => nextLoop_same _
      rw [h.fields.2.2.2.2.1]
    · exact Same.get (fun s t h => switch_twin ch h) fun s => switch_same ch s
    · cases r with
      | none => exact ih
      | some b => exact Same.pure _

end TW.HdrParser
