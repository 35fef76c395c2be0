import Verif.Model.SharedStream
import Verif.Props.Iterators

/-!
# Property C71: copies of a stream iterator
-/

namespace TW

/-- The first of some increments, and the others. -/
theorem incrN_first {ι : Type} [Iter ι] : ∀ (i : Nat) {x z : ι}, incrN (i + 1) x = (.ok (), z) →
    ∃ y, Iter.incr x = (.ok (), y) ∧ incrN i y = (.ok (), z)
  | 0, _, z, h => ⟨z, h, rfl⟩
  | i + 1, x, z, h => by
    have h' : (incrN (i + 1) >>= fun _ => Iter.incr) x = (.ok (), z) := h
    rw [M.bind_run] at h'
    cases hr : incrN (i + 1) x with
    | mk r u =>
      rw [hr] at h'
      cases r with
      | stop e => cases h'
      | ok a =>
        obtain ⟨y, h1, h2⟩ := incrN_first i hr
        refine ⟨y, h1, ?_⟩
        show (incrN i >>= fun _ => Iter.incr) y = _
        rw [M.bind_ok h2]
        exact h'

/-- Increments of one after those of the other. -/
theorem incrN_add {ι : Type} [Iter ι] (k : Nat) {x y : ι} (h : incrN k x = (.ok (), y)) : ∀ (i : Nat) {z : ι},
    incrN (k + i) x = (.ok (), z) → incrN i y = (.ok (), z)
  | 0, _, hz => by
    rw [Nat.add_zero, h] at hz
    exact hz
  | i + 1, z, hz => by
    have hz' : (incrN (k + i) >>= fun _ => Iter.incr) x = (.ok (), z) := hz
    rw [M.bind_run] at hz'
    cases hr : incrN (k + i) x with
    | mk r u =>
      rw [hr] at hz'
      cases r with
      | stop e => cases hz'
      | ok a =>
        show (incrN i >>= fun _ => Iter.incr) y = _
        rw [M.bind_ok (incrN_add k h i hr)]
        exact hz'

/-- Increments of the original alone are those of an iterator that has the stream for itself. -/
theorem Twins.run_orig : ∀ (i : Nat) {x z c : IStreamIt}, incrN i x = (.ok (), z) →
    Twins.run (List.replicate i false) { input := x.input, orig := x, copy := c } =
      (.ok (), { input := z.input, orig := z, copy := c })
  | 0, _, _, _, h => by cases h; rfl
  | i + 1, x, z, c, h => by
    obtain ⟨y, h1, h2⟩ := incrN_first i h
    have h3 : Twins.incr false { input := x.input, orig := x, copy := c } =
        (.ok (), { input := y.input, orig := y, copy := c }) := by
      have h1' : IStreamIt.incr x = (.ok (), y) := h1
      simp only [Twins.incr]
      rw [h1']
    show (Twins.incr false >>= fun _ => Twins.run (List.replicate i false)) _ = _
    rw [M.bind_ok h3]
    exact Twins.run_orig i h2

theorem Twins.run_copy : ∀ (i : Nat) {x z o : IStreamIt}, incrN i x = (.ok (), z) →
    Twins.run (List.replicate i true) { input := x.input, orig := o, copy := x } =
      (.ok (), { input := z.input, orig := o, copy := z })
  | 0, _, _, _, h => by cases h; rfl
  | i + 1, x, z, o, h => by
    obtain ⟨y, h1, h2⟩ := incrN_first i h
    have h3 : Twins.incr true { input := x.input, orig := o, copy := x } =
        (.ok (), { input := y.input, orig := o, copy := y }) := by
      have h1' : IStreamIt.incr x = (.ok (), y) := h1
      simp only [Twins.incr]
      rw [h1']
    show (Twins.incr true >>= fun _ => Twins.run (List.replicate i true)) _ = _
    rw [M.bind_ok h3]
    exact Twins.run_copy i h2

/-- Increments that stay in the buffers. -/
theorem Twins.run_within {inp : List ReadEvent} : ∀ (ws : List Bool) {x c : IStreamIt}, x.input = inp → c.input = inp →
    (ws.count false = 0 ∨ x.readpos + ws.count false < x.buf.length) →
    (ws.count true = 0 ∨ c.readpos + ws.count true < c.buf.length) →
    Twins.run ws { input := inp, orig := x, copy := c } =
      (.ok (), { input := inp, orig := { x with readpos := x.readpos + ws.count false },
                 copy := { c with readpos := c.readpos + ws.count true } })
  | [], _, _, _, _, _, _ => rfl
  | false :: ws, x, c, hx, hc, h1, h2 => by
    subst hx
    rw [List.count_cons_self] at h1
    rw [List.count_cons_of_ne (by decide)] at h2
    have h3 : Twins.incr false { input := x.input, orig := x, copy := c } =
        (.ok (), { input := x.input, orig := { x with readpos := x.readpos + 1 }, copy := c }) := by
      have h1' : IStreamIt.incr x = (.ok (), { x with readpos := x.readpos + 1 }) := by
        unfold IStreamIt.incr
        rw [if_neg (by omega)]
      simp only [Twins.incr]
      rw [h1']
    show (Twins.incr false >>= fun _ => Twins.run ws) _ = _
    rw [M.bind_ok h3, Twins.run_within ws (x := { x with readpos := x.readpos + 1 }) rfl hc (by
      show _ ∨ x.readpos + 1 + _ < x.buf.length
      omega) h2, List.count_cons_self, List.count_cons_of_ne (by decide), Nat.add_comm (ws.count false) 1, Nat.add_assoc]
  | true :: ws, x, c, hx, hc, h1, h2 => by
    subst hc
    rw [List.count_cons_self] at h2
    rw [List.count_cons_of_ne (by decide)] at h1
    have h3 : Twins.incr true { input := c.input, orig := x, copy := c } =
        (.ok (), { input := c.input, orig := x, copy := { c with readpos := c.readpos + 1 } }) := by
      have h1' : IStreamIt.incr c = (.ok (), { c with readpos := c.readpos + 1 }) := by
        unfold IStreamIt.incr
        rw [if_neg (by omega)]
      simp only [Twins.incr]
      rw [h1']
    show (Twins.incr true >>= fun _ => Twins.run ws) _ = _
    rw [M.bind_ok h3, Twins.run_within ws (c := { c with readpos := c.readpos + 1 }) hx rfl h1 (by
      show _ ∨ c.readpos + 1 + _ < c.buf.length
      omega), List.count_cons_self, List.count_cons_of_ne (by decide), Nat.add_comm (ws.count true) 1, Nat.add_assoc]

/-! ## C71

Full statement: a copy of a stream iterator and the original deliver the same bytes, whatever the order in which the two
are advanced. It is false: both take what they need from the one stream, so the bytes one of them has read are missing
for the other. -/

/-- On `abc` read byte by byte: copy the iterator, advance the copy and then the original. The original is at `c`, and
its position is still 1. -/
theorem C71_copy_false :
    ∃ it t, IStreamIt.mk' ([[97], [98], [99]].map .data) 1 = (.ok (), it) ∧
      Twins.run [true, false] (Twins.mk' it) = (.ok (), t) ∧
      t.copy.deref = .ok 98 ∧ t.orig.deref = .ok 99 ∧ t.orig.position = 1 := by
  refine ⟨_, _, rfl, rfl, ?_⟩
  decide +kernel

/-- Let the stream be read in any pieces, and a copy be made after `k` increments. After any sequence of increments of
the original (`i` in number) and of the copy (`j`), the original is at byte `k + i` and the copy at byte `k + j`, both
with the right position, if only one of the two was advanced or none of the two left the buffer they had. -/
theorem C71_copy_partial (bufsize : Nat) (cs : List (List Byte)) (hne : ∀ c ∈ cs, c ≠ [])
    (hsz : ∀ c ∈ cs, c.length ≤ bufsize) (k : Nat) :
    ∃ it0 it, IStreamIt.mk' (cs.map .data) bufsize = (.ok (), it0) ∧ incrN k it0 = (.ok (), it) ∧
      ∀ (ws : List Bool) (i j : Nat), ws.count false = i → ws.count true = j →
        (i = 0 ∨ j = 0 ∨ (it.readpos + i < it.buf.length ∧ it.readpos + j < it.buf.length)) →
        ∃ t, Twins.run ws (Twins.mk' it) = (.ok (), t) ∧
          t.orig.deref = .ok (cs.flatten[k + i]?.getD 0) ∧ t.orig.position = min (k + i) cs.flatten.length ∧
          t.copy.deref = .ok (cs.flatten[k + j]?.getD 0) ∧ t.copy.position = min (k + j) cs.flatten.length := by
  obtain ⟨it0, it, h0, h1, h2, h3⟩ := C15_istream bufsize cs hne hsz k
  have hat : ∀ i, ∃ z, incrN i it = (.ok (), z) ∧ z.deref = .ok (cs.flatten[k + i]?.getD 0) ∧
      z.position = min (k + i) cs.flatten.length := by
    intro i
    obtain ⟨it0', z, g0, g1, g2, g3⟩ := C15_istream bufsize cs hne hsz (k + i)
    rw [h0] at g0
    cases g0
    exact ⟨z, incrN_add k h1 i g1, g2, g3⟩
  refine ⟨it0, it, h0, h1, fun ws i j hi hj hc => ?_⟩
  subst hi hj
  rcases hc with hc | hc | ⟨hc, hd⟩
  · obtain ⟨z, g1, g2, g3⟩ := hat (ws.count true)
    have hws : ws = List.replicate (ws.count true) true := by
      clear g1 g2 g3
      induction ws with
      | nil => rfl
      | cons w ws ih =>
        cases w with
        | false => rw [List.count_cons_self] at hc; omega
        | true =>
          rw [List.count_cons_of_ne (by decide)] at hc
          rw [List.count_cons_self, List.replicate_succ, ← ih hc]
    have hrun := Twins.run_copy (ws.count true) (o := it) g1
    rw [← hws] at hrun
    refine ⟨_, hrun, ?_, ?_, g2, g3⟩
    · rw [hc, Nat.add_zero]; exact h2
    · rw [hc, Nat.add_zero]; exact h3
  · obtain ⟨z, g1, g2, g3⟩ := hat (ws.count false)
    have hws : ws = List.replicate (ws.count false) false := by
      clear g1 g2 g3
      induction ws with
      | nil => rfl
      | cons w ws ih =>
        cases w with
        | true => rw [List.count_cons_self] at hc; omega
        | false =>
          rw [List.count_cons_of_ne (by decide)] at hc
          rw [List.count_cons_self, List.replicate_succ, ← ih hc]
    have hrun := Twins.run_orig (ws.count false) (c := it) g1
    rw [← hws] at hrun
    refine ⟨_, hrun, g2, g3, ?_, ?_⟩
    · rw [hc, Nat.add_zero]; exact h2
    · rw [hc, Nat.add_zero]; exact h3
  · have step : ∀ (i : Nat) (x : IStreamIt), x.readpos + i < x.buf.length →
        incrN i x = (.ok (), { x with readpos := x.readpos + i }) := by
      intro i
      induction i with
      | zero => intro x _; rfl
      | succ i ih =>
        intro x hx
        show (incrN i >>= fun _ => Iter.incr) x = _
        rw [M.bind_ok (ih x (by omega))]
        show IStreamIt.incr _ = _
        unfold IStreamIt.incr
        rw [if_neg (by
          show ¬ x.buf.length ≤ x.readpos + i + 1
          omega)]
        rfl
    have hrun := Twins.run_within ws (x := it) (c := it) rfl rfl (.inr hc) (.inr hd)
    obtain ⟨z, g1, g2, g3⟩ := hat (ws.count false)
    obtain ⟨z', g1', g2', g3'⟩ := hat (ws.count true)
    rw [step _ it hc] at g1
    rw [step _ it hd] at g1'
    cases g1
    cases g1'
    exact ⟨_, hrun, g2, g3, g2', g3'⟩

/-- Original and copy in turn within the first piece of a stream. -/
example : ∃ it0 it, IStreamIt.mk' ([[1, 2, 3], [4]].map .data) 3 = (.ok (), it0) ∧ incrN 0 it0 = (.ok (), it) ∧
    it.readpos + 2 < it.buf.length ∧ [true, false, true].count true = 2 ∧ [true, false, true].count false = 1 := by
  refine ⟨_, _, rfl, rfl, ?_⟩
  decide +kernel

end TW
