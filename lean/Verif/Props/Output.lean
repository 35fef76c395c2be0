import Verif.Proofs.Output

/-!
# Property C82: the output buffer does not influence printing

Full statement: whatever the buffers given to the calls of a printer, the calls return the same, the printer is in the
same state, and each buffer gets the bytes a string would get. It is false for an `OstreamOutput` on a stream with a
field width: the first character is filled up.
-/

namespace TW

open Spec Printer

variable {limit : Nat} {cs : List PCall} {mem : Nat → Byte} {app out : Enc} {sub : Bool} {p : Printer}

/-- The members of the printers are the same. -/
def SameMembers {β γ : Type} (p : PrinterTo β) (q : PrinterTo γ) : Prop :=
  q.state = p.state ∧ q.tagstack = p.tagstack ∧ q.app = p.app ∧ q.out = p.out ∧ q.lasterror = p.lasterror

theorem takes_sbuf {n m : Nat} (hm : n ≤ m) : Takes (fun b : SBuf => b.Ok ∧ b.size = n ∧ b.ar.length = m) := by
  rintro c b ⟨h1, h2, h3⟩
  obtain ⟨b', r1, o1, s1, l1, -⟩ := SBuf.push_back_run h1 c
  exact ⟨b', r1, o1, by omega, by omega⟩

theorem pushed_sbuf {n : Nat} (bs : List Byte) : ∀ {b : SBuf}, b.Ok → b.size = n →
    (pushed bs b).content = (b.content ++ bs).take n ∧
    (pushed bs b).overflow = (b.overflow || decide (n < b.content.length + bs.length)) := by
  induction bs with
  | nil =>
    intro b h hs
    have := SBuf.content_length h
    have := h.pos
    refine ⟨?_, ?_⟩
    · show b.content = _
      rw [List.append_nil, List.take_of_length_le (by omega)]
    · show b.overflow = _
      rw [decide_eq_false (by simp only [List.length_nil]; omega), Bool.or_false]
  | cons c bs ih =>
    intro b h hs
    obtain ⟨b', r1, o1, s1, l1, c1, v1, -⟩ := SBuf.push_back_run h c
    have h3 : pushed (c :: bs) b = pushed bs b' := by
      unfold pushed
      show ((OutBuffer.push c >>= fun _ => pushAll bs) b).2 = _
      have r2 : (OutBuffer.push c : M SBuf Unit) b = (.ok (), b') := r1
      rw [M.bind_ok r2]
    obtain ⟨i1, i2⟩ := ih o1 (by omega)
    have hl := SBuf.content_length h
    have hp := h.pos
    have hc : b'.content.length = min n (b.content.length + 1) := by rw [c1, hs]; simp
    rw [h3, i1, i2, v1, hc, hs]
    refine ⟨?_, ?_⟩
    · rw [c1, hs]
      apply List.ext_getElem?
      intro k
      by_cases hk : k < n
      · rw [List.getElem?_take_of_lt hk, List.getElem?_take_of_lt hk]
        by_cases hf : b.content.length + 1 ≤ n
        · rw [List.take_of_length_le (l := b.content ++ [c]) (by simp; omega)]
          simp
        · have hbn : b.content.length = n := by omega
          rw [List.getElem?_append_left (by simp; omega), List.getElem?_append_left (by omega),
            List.getElem?_take_of_lt hk, List.getElem?_append_left (by omega)]
      · rw [List.getElem?_take_eq_none (by omega), List.getElem?_take_eq_none (by omega)]
    · rw [Bool.or_assoc]
      congr 1
      rw [Bool.eq_iff_iff]
      simp only [Bool.or_eq_true, decide_eq_true_eq, List.length_cons]
      omega

/-- A `StaticBuffer` of `n` bytes gets the first `n` bytes, and its overflow flag tells whether there are more. -/
theorem C82_static_buffer {r : Res (List Bool)} {n : Nat} {block : List Byte} (hn : n ≤ block.length)
    (h : calls limit cs (newTo mem app out sub []) = (r, p)) :
    ∃ q, calls limit cs (newTo mem app out sub (SBuf.foreign block n)) = (r, q) ∧ SameMembers p q ∧
      q.buf.content = p.buf.take n ∧ q.buf.overflow = decide (n < p.buf.length) := by
  have hok : (SBuf.foreign block n).Ok := ⟨Nat.zero_le _, hn⟩
  have hpar := par_calls (takes_sbuf hn) (b := SBuf.foreign block n) ⟨hok, rfl, rfl⟩ limit cs (newTo mem app out sub [])
  unfold ParAt at hpar
  rw [h] at hpar
  obtain ⟨h1, h2⟩ := pushed_sbuf (n := n) p.buf hok rfl
  refine ⟨_, hpar, ⟨rfl, rfl, rfl, rfl, rfl⟩, ?_, ?_⟩
  · refine h1.trans ?_
    simp [SBuf.foreign, SBuf.content]
  · refine h2.trans ?_
    simp [SBuf.foreign, SBuf.content]

/-- `<a>b</a>` and a line break do not fit into 6 bytes. -/
example : (calls 100 [.open_ [97], .value [98], .close] (newTo (fun _ => 0) .utf8 .utf8 true [])).2.buf =
      Spec.ascii "<a>b</a>\n" ∧
    (calls 100 [.open_ [97], .value [98], .close]
      (newTo (fun _ => 0) .utf8 .utf8 true (SBuf.foreign (List.replicate 10 7) 6))).2.buf.content = Spec.ascii "<a>b</" := by
  refine ⟨by decide +kernel, by decide +kernel⟩

theorem takes_ostream : Takes (fun _ : OStream => True) := fun c b _ => ⟨b.put c, rfl, trivial⟩

theorem pushed_cons_ostream (c : Byte) (bs : List Byte) (s : OStream) : pushed (c :: bs) s = pushed bs (s.put c) := rfl

theorem pushed_bad (bs : List Byte) {s : OStream} (h : s.good = false) : pushed bs s = s := by
  induction bs with
  | nil => rfl
  | cons c bs ih => rw [pushed_cons_ostream, show s.put c = s by simp [OStream.put, h], ih]

theorem pushed_ostream (bs : List Byte) : ∀ {s : OStream}, s.width ≤ 1 → s.good = true →
    (s.room = none → (pushed bs s).written = s.written ++ bs ∧ (pushed bs s).good = true) ∧
    ∀ k, s.room = some k → (pushed bs s).written = s.written ++ bs.take k ∧
      (pushed bs s).good = decide (bs.length ≤ k) := by
  induction bs with
  | nil =>
    intro s hw hg
    refine ⟨fun _ => ⟨(List.append_nil _).symm, hg⟩, fun k _ => ⟨?_, ?_⟩⟩
    · rw [List.take_nil, List.append_nil]; rfl
    · show s.good = _
      simp [hg]
  | cons c bs ih =>
    intro s hw hg
    have hp : s.put c = { s.write [c] with width := 0 } := by
      unfold OStream.put
      rw [if_pos hg, show s.width - 1 = 0 by omega]
      simp
    rw [pushed_cons_ostream, hp]
    refine ⟨fun hr => ?_, fun k hr => ?_⟩
    · have hwr : ({ s.write [c] with width := 0 } : OStream) = { s with written := s.written ++ [c], width := 0 } := by
        unfold OStream.write; rw [hr]
      rw [hwr]
      have := (ih (s := { s with written := s.written ++ [c], width := 0 }) (Nat.zero_le _) hg).1 hr
      simpa using this
    · have hwr : ({ s.write [c] with width := 0 } : OStream) = { s with written := s.written ++ [c].take k, room := some (k - 1), good := decide (1 ≤ k), width := 0 } := by
        unfold OStream.write; rw [hr]; simp [hg]
      rw [hwr]
      cases k with
      | zero =>
        rw [pushed_bad _ rfl]
        simp
      | succ k =>
        have := (ih (s := { s with written := s.written ++ [c], room := some k, good := true, width := 0 })
          (Nat.zero_le _) rfl).2 k rfl
        simpa using this

/-- With a field width of 5 the first character is filled up. -/
theorem C82_ostream_false :
    (calls 100 [.open_ [97]] (newTo (fun _ => 0) .utf8 .utf8 true [])).2.buf = Spec.ascii "<a" ∧
    (calls 100 [.open_ [97]] (newTo (fun _ => 0) .utf8 .utf8 true
      { written := [], room := none, good := true, width := 5, fill := 32, left := false : OStream })).2.buf.written =
      Spec.ascii "    <a" := by
  refine ⟨by decide +kernel, by decide +kernel⟩

/-- A stream in good state without a field width gets the bytes, as far as its device takes them; the state is bad
afterwards if it does not take all. Missing: streams with a field width, for these it is false. -/
theorem C82_ostream_partial {r : Res (List Bool)} {s : OStream} (hw : s.width ≤ 1) (hg : s.good = true)
    (h : calls limit cs (newTo mem app out sub []) = (r, p)) :
    ∃ q, calls limit cs (newTo mem app out sub s) = (r, q) ∧ SameMembers p q ∧
      (s.room = none → q.buf.written = s.written ++ p.buf ∧ q.buf.good = true) ∧
      ∀ k, s.room = some k → q.buf.written = s.written ++ p.buf.take k ∧ q.buf.good = decide (p.buf.length ≤ k) := by
  have hpar := par_calls takes_ostream (b := s) trivial limit cs (newTo mem app out sub [])
  unfold ParAt at hpar
  rw [h] at hpar
  obtain ⟨h1, h2⟩ := pushed_ostream p.buf hw hg
  exact ⟨_, hpar, ⟨rfl, rfl, rfl, rfl, rfl⟩, h1, h2⟩

/-- A file with room for 5 bytes. -/
example : (calls 100 [.open_ [97], .value [98], .close] (newTo (fun _ => 0) .utf8 .utf8 true
      { written := [], room := some 5, good := true, width := 0, fill := 32, left := false : OStream })).2.buf =
      { written := Spec.ascii "<a>b<", room := some 0, good := false, width := 0, fill := 32, left := false } := by
  decide +kernel

theorem takes_list : Takes (fun _ : List Byte => True) := fun c b _ => ⟨b ++ [c], rfl, trivial⟩

theorem over_list (l : List Byte) (s : Printer) : over l s = s.withBuf (l ++ s.buf) := by
  unfold over pushed
  rw [pushAll_list]

/-- Calls with strings as buffers, a string for each number: what a call prints does not depend on the buffers given to
the calls before, and is appended to its buffer. -/
theorem C82_buffers {rs : List Bool} (h : calls limit cs (newTo mem app out sub []) = (.ok rs, p)) :
    ∃ outs : List (List Byte), outs.length = cs.length ∧ p.buf = outs.flatten ∧
      ∀ nums : List Nat, nums.length = cs.length → ∃ q,
        callsTo limit (nums.zip cs) (newTo mem app out sub fun _ => []) = (.ok rs, q) ∧ SameMembers p q ∧
        ∀ j, q.buf j = (((nums.zip outs).filter (·.1 = j)).map (·.2)).flatten := by
  have key : ∀ (cs : List PCall) (s : Printer) (rs : List Bool) (p : Printer), calls limit cs s = (.ok rs, p) →
      ∃ outs : List (List Byte), outs.length = cs.length ∧ p.buf = s.buf ++ outs.flatten ∧
        ∀ (nums : List Nat) (bufs : Nat → List Byte), nums.length = cs.length → ∃ q,
          callsTo limit (nums.zip cs) (s.withBuf bufs) = (.ok rs, q) ∧ SameMembers p q ∧
          ∀ j, q.buf j = bufs j ++ (((nums.zip outs).filter (·.1 = j)).map (·.2)).flatten := by
    intro cs
    induction cs with
    | nil =>
      intro s rs p h
      cases h
      refine ⟨[], rfl, by simp, fun nums bufs hn => ?_⟩
      rw [List.zip_nil_right]
      exact ⟨_, rfl, ⟨rfl, rfl, rfl, rfl, rfl⟩, fun j => by simp [PrinterTo.withBuf]⟩
    | cons c cs ih =>
      intro s rs p h
      have hc : ∀ l : List Byte, call limit c (s.withBuf l) = overR l (call limit c (s.withBuf ([] : List Byte))) := by
        intro l
        have := par_call takes_list (b := l) (s := s.withBuf ([] : List Byte)) trivial limit c
        unfold ParAt at this
        rw [over_list] at this
        simpa [PrinterTo.withBuf] using this
      rcases h0 : call limit c (s.withBuf ([] : List Byte)) with ⟨r, s0⟩
      have h1 : call limit c s = (r, s0.withBuf (s.buf ++ s0.buf)) := by
        have := hc s.buf
        rw [h0] at this
        unfold overR at this
        rw [over_list] at this
        exact this
      cases r with
      | stop e =>
        unfold calls at h
        rw [M.bind_stop h1] at h
        cases h
      | ok r =>
        unfold calls at h
        rw [M.bind_ok h1, M.bind_run] at h
        rcases h2 : calls limit cs (s0.withBuf (s.buf ++ s0.buf)) with ⟨rs', p'⟩
        rw [h2] at h
        cases rs' with
        | stop e => cases h
        | ok rs' =>
          cases h
          obtain ⟨outs, o1, o2, o3⟩ := ih _ _ _ h2
          refine ⟨s0.buf :: outs, by simp [o1], ?_, fun nums bufs hn => ?_⟩
          · rw [o2]; simp [PrinterTo.withBuf]
          · cases nums with
            | nil => cases hn
            | cons i nums =>
              obtain ⟨q, q1, q2, q3⟩ := o3 nums (fun j => if j = i then bufs i ++ s0.buf else bufs j) (by simpa using hn)
              have g1 : callTo limit i c (s.withBuf bufs) =
                  (.ok r, s0.withBuf fun j => if j = i then bufs i ++ s0.buf else bufs j) := by
                unfold callTo
                have := hc (bufs i)
                rw [h0] at this
                unfold overR at this
                rw [over_list] at this
                have this' : call limit c ((s.withBuf bufs).withBuf ((s.withBuf bufs).buf i)) = _ := this
                rw [this']
                rfl
              refine ⟨q, ?_, q2, fun j => ?_⟩
              · rw [List.zip_cons_cons]
                show (callTo limit i c >>= fun r => callsTo limit (nums.zip cs) >>= fun rs => pure (r :: rs)) _ = _
                rw [M.bind_ok g1]
                have q1' : callsTo limit (nums.zip cs) (s0.withBuf fun j => if j = i then bufs i ++ s0.buf else bufs j) = _ := q1
                rw [M.bind_ok q1']
                rfl
              · rw [q3, List.zip_cons_cons, List.filter_cons]
                by_cases hj : j = i
                · subst hj; simp
                · rw [if_neg hj, if_neg (by simpa using fun h => hj h.symm)]
  obtain ⟨outs, h1, h2, h3⟩ := key cs _ _ _ h
  refine ⟨outs, h1, by simpa [newTo] using h2, fun nums hn => ?_⟩
  obtain ⟨q, q1, q2, q3⟩ := h3 nums (fun _ => []) hn
  exact ⟨q, q1, q2, fun j => by rw [q3]; rfl⟩

/-- The tags of `<a>b</a>` in the buffer 0, the content in the buffer 1. -/
example : (calls 100 [.open_ [97], .value [98], .close] (newTo (fun _ => 0) .utf8 .utf8 true ([] : List Byte))).1 =
      .ok [true, true, true] ∧
    ((callsTo 100 ([0, 1, 0].zip [.open_ [97], .value [98], .close])
      (newTo (fun _ => 0) .utf8 .utf8 true fun _ => ([] : List Byte))).2.buf 0,
     (callsTo 100 ([0, 1, 0].zip [.open_ [97], .value [98], .close])
      (newTo (fun _ => 0) .utf8 .utf8 true fun _ => ([] : List Byte))).2.buf 1) = (Spec.ascii "<a</a>\n", Spec.ascii ">b") := by
  refine ⟨by decide +kernel, by decide +kernel⟩

end TW
