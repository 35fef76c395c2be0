import Verif.Proofs.Thrown
import Verif.Props.Output

/-!
# Property C111: a printer after an exception of its buffer

The printer catches no exceptions. If `push_back` throws, the bytes that had room are in the buffer, and the members
are those before the call, except that leaving a tag and closing a tag are not undone.
-/

namespace TW

open Spec Printer

/-- The members `q` after `push_back` threw in a call, with room for `L` bytes in all. `s` is the printer before the
call, `r` and `s'` are what the call gives with a string. -/
def AfterThrow (L : Nat) (s : Printer) (r : Res Bool) (s' : Printer) (q : PrinterTo Throwing) : PCall → Prop
  | .open_ _ =>
    if (s.state = .TagElement ∨ s.state = .TagAttribute) ∧ s.buf.length + (s.out.print 62).length ≤ L then
      SameMembers { s with state := .Content } q else SameMembers s q
  | .value _ =>
    if s.state = .TagElement ∧ s.buf.length + (s.out.print 62).length ≤ L then
      SameMembers { s with state := .Content } q else SameMembers s q
  | .close =>
    if r = .ok true ∧ s'.tagstack.empty = true ∧ s'.buf.length ≤ L + (s.out.print 10).length then
      SameMembers s' q else SameMembers s q
  | _ => SameMembers s q

theorem afterThrow_of {L : Nat} {s : Printer} {W : Res Bool × Printer} {q : PrinterTo Throwing} {c : PCall} (h : Left L s W q c) :
    AfterThrow L s W.1 W.2 q c := by
  cases c with
  | value v =>
    have h' : if s.state = .TagAttribute then As s q else ExitLeft L s q := h
    unfold ExitLeft at h'
    show if s.state = .TagElement ∧ s.buf.length + (s.out.print 62).length ≤ L then
      SameMembers { s with state := .Content } q else SameMembers s q
    by_cases h1 : s.state = .TagAttribute
    · rw [if_pos h1] at h'
      rw [if_neg (fun h2 => absurd (h2.1.symm.trans h1) (by decide))]
      exact h'
    · rw [if_neg h1] at h'
      by_cases h2 : s.state = .TagElement ∧ s.buf.length + (s.out.print 62).length ≤ L
      · rw [if_pos ⟨Or.inl h2.1, h2.2⟩] at h'
        rw [if_pos h2]
        exact h'
      · rw [if_neg (fun h3 => h3.1.elim (fun h4 => h2 ⟨h4, h3.2⟩) h1)] at h'
        rw [if_neg h2]
        exact h'
  | _ => exact h

variable {limit L : Nat} {e : Cause} {cs : List PCall} {mem : Nat → Byte} {app out : Enc} {sub : Bool} {p : Printer}

/-- One call, for any printer. -/
theorem C111_call {s s' : Printer} {r : Res Bool} {c : PCall} (hl : s.buf.length ≤ L) (h : call limit c s = (r, s')) :
    s.buf <+: s'.buf ∧
    (s'.buf.length ≤ L → call limit c (s.withBuf (⟨s.buf, L - s.buf.length, e⟩ : Throwing)) =
      (r, s'.withBuf ⟨s'.buf, L - s'.buf.length, e⟩)) ∧
    (L < s'.buf.length → ∃ q, call limit c (s.withBuf (⟨s.buf, L - s.buf.length, e⟩ : Throwing)) = (.stop (.throw e), q) ∧
      q.buf = ⟨s'.buf.take L, 0, e⟩ ∧ AfterThrow L s r s' q c) := by
  have := thr_call (e := e) (L := L) (s := s) limit c hl
  rw [h] at this
  obtain ⟨h1, h2, h3⟩ := this
  refine ⟨h1, h2, fun h4 => ?_⟩
  obtain ⟨q, g1, g2, g3⟩ := h3 h4
  exact ⟨q, g1, g2, afterThrow_of g3⟩

theorem grows_calls (cs : List PCall) : Grows (calls limit cs) := by
  induction cs with
  | nil => exact .pure []
  | cons c cs ih =>
    exact Grows.bind (fun s => (thr_call (e := .CorruptTagStack) (L := s.buf.length) (s := s) limit c (Nat.le_refl _)).1) fun _ =>
      Grows.bind ih fun _ => .pure _

theorem calls_room (cs : List PCall) : ∀ (s : Printer) (r : Res (List Bool)) (p : Printer), s.buf.length ≤ L →
    calls limit cs s = (r, p) → s.buf <+: p.buf ∧ (p.buf.length ≤ L → calls limit cs (full e L s) = (r, full e L p)) ∧
    (L < p.buf.length → ∃ as c bs rs s1 s2 r', cs = as ++ c :: bs ∧ calls limit as s = (.ok rs, s1) ∧ call limit c s1 = (r', s2) ∧
      s1.buf.length ≤ L ∧ L < s2.buf.length ∧ ∃ q, calls limit cs (full e L s) = (.stop (.throw e), q) ∧
        q.buf = ⟨p.buf.take L, 0, e⟩ ∧ AfterThrow L s1 r' s2 q c) := by
  induction cs with
  | nil =>
    intro s r p hl h
    cases h
    exact ⟨List.prefix_rfl, fun _ => rfl, fun h => absurd h (Nat.not_lt.2 hl)⟩
  | cons c cs ih =>
    intro s r p hl h
    rcases hc : call limit c s with ⟨r1, s1⟩
    obtain ⟨c1, c2, c3⟩ := C111_call (e := e) hl hc
    have d2 : s1.buf.length ≤ L → call limit c (full e L s) = (r1, full e L s1) := c2
    unfold calls at h
    cases r1 with
    | stop t =>
      rw [M.bind_stop hc] at h
      cases h
      refine ⟨c1, fun h4 => ?_, fun h4 => ?_⟩
      · show (call limit c >>= _) _ = _
        rw [M.bind_stop (d2 h4)]
      · obtain ⟨q, g1, g2, g3⟩ := c3 h4
        refine ⟨[], c, cs, [], s, _, _, rfl, rfl, hc, hl, h4, q, ?_, g2, g3⟩
        show (call limit c >>= _) _ = _
        exact M.bind_stop g1
    | ok b =>
      rw [M.bind_ok hc] at h
      rcases hd : calls limit cs s1 with ⟨r2, p2⟩
      have hp : p2 = p ∧ r = (match r2 with | .ok rs => .ok (b :: rs) | .stop t => .stop t) := by
        cases r2 with
        | ok rs => rw [M.bind_ok hd] at h; cases h; exact ⟨rfl, rfl⟩
        | stop t => rw [M.bind_stop hd] at h; cases h; exact ⟨rfl, rfl⟩
      obtain ⟨rfl, rfl⟩ := hp
      have hpre : s1.buf <+: p2.buf := by
        have := grows_calls (limit := limit) cs s1
        rw [hd] at this
        exact this
      refine ⟨c1.trans hpre, fun h4 => ?_, fun h4 => ?_⟩
      · have h5 := Nat.le_trans hpre.length_le h4
        have h6 := (ih s1 r2 p2 h5 hd).2.1 h4
        show (call limit c >>= _) _ = _
        rw [M.bind_ok (d2 h5)]
        cases r2 with
        | ok rs => rw [M.bind_ok h6]; rfl
        | stop t => rw [M.bind_stop h6]
      · by_cases h5 : s1.buf.length ≤ L
        · obtain ⟨as, c', bs, rs, a1, a2, r', b1, b2, b3, b4, b5, q, b6, b7, b8⟩ := (ih s1 r2 p2 h5 hd).2.2 h4
          refine ⟨c :: as, c', bs, b :: rs, a1, a2, r', by rw [b1]; rfl, ?_, b3, b4, b5, q, ?_, b7, b8⟩
          · show (call limit c >>= _) _ = _
            rw [M.bind_ok hc, M.bind_ok b2]
            rfl
          · show (call limit c >>= _) _ = _
            rw [M.bind_ok (d2 h5), M.bind_stop b6]
        · obtain ⟨q, g1, g2, g3⟩ := c3 (by omega)
          refine ⟨[], c, cs, [], s, _, _, rfl, rfl, hc, hl, by omega, q, ?_, ?_, g3⟩
          · show (call limit c >>= _) _ = _
            exact M.bind_stop g1
          · rw [g2]
            obtain ⟨z, hz⟩ := hpre
            rw [← hz, List.take_append_of_le_length (by omega)]

/-- With room for all bytes nothing is thrown. -/
theorem C111_room {r : Res (List Bool)} (h : calls limit cs (newTo mem app out sub []) = (r, p)) (hl : p.buf.length ≤ L) :
    ∃ q, calls limit cs (newTo mem app out sub (⟨[], L, e⟩ : Throwing)) = (r, q) ∧ SameMembers p q ∧
      q.buf = ⟨p.buf, L - p.buf.length, e⟩ :=
  ⟨_, (calls_room (e := e) cs _ r p (Nat.zero_le L) h).2.1 hl, ⟨rfl, rfl, rfl, rfl, rfl⟩, rfl⟩

/-- Else the call that has the first byte without room throws; the buffer has the bytes up to this one. -/
theorem C111_throws {r : Res (List Bool)} (h : calls limit cs (newTo mem app out sub []) = (r, p)) (hl : L < p.buf.length) :
    ∃ as c bs rs s s' r', cs = as ++ c :: bs ∧ calls limit as (newTo mem app out sub []) = (.ok rs, s) ∧
      call limit c s = (r', s') ∧ s.buf.length ≤ L ∧ L < s'.buf.length ∧
      ∃ q, calls limit cs (newTo mem app out sub (⟨[], L, e⟩ : Throwing)) = (.stop (.throw e), q) ∧
        q.buf = ⟨p.buf.take L, 0, e⟩ ∧ AfterThrow L s r' s' q c :=
  (calls_room (e := e) cs _ r p (Nat.zero_le L) h).2.2 hl

/-- `<a><b x="y"/></a>` and a line break with room for 6 bytes: `printAttribute` throws at the `x`, the tag is still
waiting for an attribute. -/
example :
    (calls 1000 [.open_ [97], .open_ [98], .attr [120], .value [121], .close, .close] (newTo (fun _ => 0) .utf8 .utf8 true ([] : List Byte))).2.buf =
      Spec.ascii "<a><b x=\"y\"/></a>\n" ∧
    (calls 1000 [.open_ [97], .open_ [98], .attr [120], .value [121], .close, .close]
      (newTo (fun _ => 0) .utf8 .utf8 true (⟨[], 6, .CorruptTagStack⟩ : Throwing))).1 = .stop (.throw .CorruptTagStack) ∧
    (calls 1000 [.open_ [97], .open_ [98], .attr [120], .value [121], .close, .close]
      (newTo (fun _ => 0) .utf8 .utf8 true (⟨[], 6, .CorruptTagStack⟩ : Throwing))).2.buf.data = Spec.ascii "<a><b " ∧
    (calls 1000 [.open_ [97], .open_ [98], .attr [120], .value [121], .close, .close]
      (newTo (fun _ => 0) .utf8 .utf8 true (⟨[], 6, .CorruptTagStack⟩ : Throwing))).2.state = .TagElement := by
  refine ⟨by decide +kernel, by decide +kernel, by decide +kernel, by decide +kernel⟩

/-- A call that threw is not undone: when the line break after the end of the root is without room, the tag is closed,
and the same call made again with room returns false and prints nothing. -/
theorem C111_not_undone : ∃ q : PrinterTo Throwing,
    calls 1000 [.open_ [97], .close] (newTo (fun _ => 0) .utf8 .utf8 true (⟨[], 4, e⟩ : Throwing)) = (.stop (.throw e), q) ∧
    q.buf.data = Spec.ascii "<a/>" ∧ q.tagstack.empty = true ∧
    call 1000 .close (q.withBuf ([] : List Byte)) = (.ok false, q.withBuf []) := by
  have pair : ∀ x : Res (List Bool) × Printer, x = (x.1, x.2) := fun _ => rfl
  have h := pair (calls 1000 [.open_ [97], .close] (newTo (fun _ => 0) .utf8 .utf8 true ([] : List Byte)))
  have hb : (calls 1000 [.open_ [97], .close] (newTo (fun _ => 0) .utf8 .utf8 true ([] : List Byte))).2.buf = Spec.ascii "<a/>\n" := by
    decide +kernel
  have hs : (calls 1000 [.open_ [97], .close] (newTo (fun _ => 0) .utf8 .utf8 true ([] : List Byte))).2.state = .Content := by
    decide +kernel
  obtain ⟨as, c, bs, rs, s, s', r', h1, h2, h3, h4, h5, q, h6, h7, h8⟩ := C111_throws (e := e) (L := 4) h (by rw [hb]; decide)
  have ho : (call 1000 (.open_ [97]) (newTo (fun _ => 0) .utf8 .utf8 true ([] : List Byte))).2.buf = Spec.ascii "<a" := by decide +kernel
  have hr : (calls 1000 [.open_ [97]] (newTo (fun _ => 0) .utf8 .utf8 true ([] : List Byte))).2.out = .utf8 := by decide +kernel
  have hc : (call 1000 .close (calls 1000 [.open_ [97]] (newTo (fun _ => 0) .utf8 .utf8 true ([] : List Byte))).2).1 = .ok true := by decide +kernel
  have hm : (call 1000 .close (calls 1000 [.open_ [97]] (newTo (fun _ => 0) .utf8 .utf8 true ([] : List Byte))).2).2.tagstack.pos = 0 := by decide +kernel
  have hl : (call 1000 .close (calls 1000 [.open_ [97]] (newTo (fun _ => 0) .utf8 .utf8 true ([] : List Byte))).2).2.buf.length = 5 := by decide +kernel
  match as, h1, h2 with
  | [], h1, h2 =>
    cases h1
    cases h2
    rw [h3] at ho
    simp only at ho
    rw [ho] at h5
    exact absurd h5 (by decide)
  | [a], h1, h2 =>
    cases h1
    rw [h2] at hr hc hm hl
    simp only at hr hc hm hl
    rw [h3] at hc hm hl
    simp only at hc hm hl
    unfold AfterThrow at h8
    simp only at h8
    have he : s'.tagstack.empty = true := by unfold TagStack.empty; rw [hm]; decide
    rw [if_pos ⟨hc, he, by rw [hl, hr]; decide⟩] at h8
    have hq : q.tagstack.pos = 0 := by rw [h8.2.1, hm]
    refine ⟨q, h6, ?_, by rw [h8.2.1]; exact he, ?_⟩
    · rw [h7, hb]; rfl
    · have ht : TagStack.top q.tagstack = (.ok none, q.tagstack) := by
        have h9 : TagStack.topofs q.tagstack = (.ok (0, 0), q.tagstack) := by
          unfold TagStack.topofs
          rw [M.bind_ok (M.get_run _), if_pos (by omega)]
          rfl
        unfold TagStack.top
        rw [M.bind_ok h9]
        rfl
      have h9 : (onStack TagStack.top : M Printer _) (q.withBuf []) = (.ok none, q.withBuf []) := by
        show (match TagStack.top q.tagstack with | (r, t) => (r, ({ q.withBuf [] with tagstack := t } : Printer))) = _
        rw [ht]
        rfl
      show printCloseTag _ = _
      unfold printCloseTag
      rw [M.bind_ok h9]
      rfl
  | a :: b :: c :: as, h1, h2 => simp at h1
  | [a, b], h1, h2 => simp at h1

/-- `OstreamOutput::append` is `push_back` for each of the characters. -/
theorem C82_append (bs : List Byte) {s : OStream} (hw : s.width ≤ 1) (hg : s.good = true) :
    (s.room = none → (s.append bs).written = s.written ++ bs ∧ (s.append bs).good = true) ∧
    ∀ k, s.room = some k → (s.append bs).written = s.written ++ bs.take k ∧ (s.append bs).good = decide (bs.length ≤ k) := by
  have h : ∀ s : OStream, s.append bs = pushed bs s := by
    induction bs with
    | nil => intro s; rfl
    | cons c bs ih => intro s; rw [pushed_cons_ostream, ← ih]; rfl
  rw [h]
  exact pushed_ostream bs hw hg

example : (OStream.append { written := [], room := some 2, good := true, width := 0, fill := 32, left := false }
    [97, 98, 99]).written = [97, 98] := by
  decide +kernel

end TW
