import Verif.Model.StdStream
import Verif.Props.Iterators

/-!
# Property C72: iterating on a standard stream
-/

namespace TW

/-- Reads behind the end give nothing. -/
theorem StdInput.events_eof (n : Nat) : ∀ (m : Nat) {i : StdInput}, i.stream.eof = true →
    i.events n m = List.replicate m (.data [])
  | 0, _, _ => rfl
  | m + 1, i, h => by
    have he : i.event n = (.data [], { stream := i.stream, errno := 0 }) := by
      unfold StdInput.event StdInput.read StdStream.read
      rw [if_pos (.inl h)]
      simp [h]
    show (i.event n).1 :: StdInput.events n m (i.event n).2 = _
    rw [he, StdInput.events_eof n m (i := { stream := i.stream, errno := 0 }) h]
    rfl

/-- A read that gets all the bytes asked for. -/
theorem StdInput.event_full {n : Nat} {bs : List Byte} {f : Option Nat} {e : Nat} (h : n ≤ bs.length) :
    StdInput.event n { stream := .opened bs f, errno := e } =
      (.data (bs.take n), { stream := .opened (bs.drop n) f, errno := 0 }) := by
  unfold StdInput.event StdInput.read StdStream.read StdStream.opened
  simp [h]

theorem StdInput.events_good {n : Nat} (hn : 1 ≤ n) : ∀ (l : Nat) (bs : List Byte) (e : Nat), bs.length ≤ l →
    ∃ cs : List (List Byte), cs.flatten = bs ∧ (∀ c ∈ cs, c ≠ [] ∧ c.length ≤ n) ∧
      ∀ m, StdInput.events n (cs.length + m) { stream := .opened bs, errno := e } =
        cs.map .data ++ List.replicate m (.data []) := by
  intro l
  induction l with
  | zero =>
    intro bs e hl
    have : bs = [] := List.length_eq_zero_iff.1 (by omega)
    subst this
    refine ⟨[], rfl, fun c hc => (nomatch hc), fun m => ?_⟩
    rw [List.length_nil, Nat.zero_add]
    cases m with
    | zero => rfl
    | succ m =>
      have he : StdInput.event n { stream := .opened [], errno := e } =
          (.data [], { stream := { rest := [], fault := none, eof := true, bad := false }, errno := 0 }) := by
        unfold StdInput.event StdInput.read StdStream.read StdStream.opened
        simp [show ¬ n ≤ 0 by omega]
      unfold StdInput.events
      rw [he, StdInput.events_eof n m rfl]
      rfl
  | succ l ih =>
    intro bs e hl
    by_cases hf : n ≤ bs.length
    · obtain ⟨cs, h1, h2, h3⟩ := ih (bs.drop n) 0 (by rw [List.length_drop]; omega)
      refine ⟨bs.take n :: cs, ?_, ?_, fun m => ?_⟩
      · rw [List.flatten_cons, h1, List.take_append_drop]
      · intro c hc
        rcases List.mem_cons.1 hc with rfl | hc
        · refine ⟨fun h => ?_, by rw [List.length_take]; omega⟩
          have := congrArg List.length h
          rw [List.length_take, List.length_nil] at this
          omega
        · exact h2 c hc
      · rw [List.length_cons, Nat.add_right_comm]
        unfold StdInput.events
        rw [StdInput.event_full hf, h3]
        rfl
    · by_cases h0 : bs = []
      · subst h0
        exact ih [] e (by simp)
      · have he : StdInput.event n { stream := .opened bs, errno := e } =
            (.data bs, { stream := { rest := [], fault := none, eof := true, bad := false }, errno := 0 }) := by
          unfold StdInput.event StdInput.read StdStream.read StdStream.opened
          simp [hf]
        refine ⟨[bs], by simp, ?_, fun m => ?_⟩
        · intro c hc
          rw [List.mem_singleton.1 hc]
          exact ⟨h0, by omega⟩
        · rw [List.length_singleton, Nat.add_comm]
          unfold StdInput.events
          rw [he, StdInput.events_eof n m rfl]
          rfl

/-! ## C72

Full statement: iterating on a standard stream with any buffer size gives the bytes of the stream and null bytes behind
the end, and an exception if reading fails. It is false for failures that do not set `errno`: they are taken for the end
of the stream. -/

/-- A stream that fails behind two bytes and does not set `errno`: the first read gives nothing and reports no error,
and the iterator is at the end. -/
theorem C72_failure_false :
    StdInput.events 8 3 { stream := .opened [65, 66] (some 0), errno := 0 } = [.data [], .data [], .data []] ∧
    ∃ it, IStreamIt.mk' (StdInput.events 8 3 { stream := .opened [65, 66] (some 0), errno := 0 }) 8 = (.ok (), it) ∧
      it.deref = .ok 0 := by
  refine ⟨by decide +kernel, _, rfl, by decide +kernel⟩

/-- For a stream that does not fail, opened for `StdInputStream`, and any buffer size but 0: the reads give the bytes of
the stream in pieces and then nothing, whatever the number of reads; the iterator on these reads is at byte `k` of the
stream after `k` increments, or at a null byte if there is none. -/
theorem C72_bytes_partial {n : Nat} (hn : 1 ≤ n) (bs : List Byte) :
    ∃ (i : StdInput) (cs : List (List Byte)), StdInput.mk' (.opened bs) = some i ∧ cs.flatten = bs ∧
      (∀ m, i.events n (cs.length + m) = cs.map .data ++ List.replicate m (.data [])) ∧
      ∀ k, ∃ it0 it, IStreamIt.mk' (i.events n cs.length) n = (.ok (), it0) ∧ incrN k it0 = (.ok (), it) ∧
        it.deref = .ok (bs[k]?.getD 0) ∧ it.position = min k bs.length := by
  obtain ⟨cs, h1, h2, h3⟩ := StdInput.events_good hn bs.length bs 0 (Nat.le_refl _)
  refine ⟨_, cs, rfl, h1, h3, fun k => ?_⟩
  have h4 := h3 0
  rw [Nat.add_zero, List.replicate_zero, List.append_nil] at h4
  rw [h4, ← h1]
  exact C15_istream n cs (fun c hc => (h2 c hc).1) (fun c hc => (h2 c hc).2) k

example : ∃ i, StdInput.mk' (.opened [1, 2, 3, 4, 5]) = some i ∧
    i.events 2 5 = [.data [1, 2], .data [3, 4], .data [5], .data [], .data []] := ⟨_, rfl, by decide +kernel⟩

/-- For a stream that fails behind its bytes and sets `errno`: the reads give the bytes in full pieces, and then an
error (the bytes of a piece that is not full are lost). -/
theorem C72_failure_partial {n : Nat} (hn : 1 ≤ n) {er : Nat} (he : er ≠ 0) (bs : List Byte) :
    ∃ cs : List (List Byte), (∀ c ∈ cs, c.length = n) ∧ cs.flatten = bs.take (bs.length / n * n) ∧
      ∀ e m, StdInput.events n (cs.length + 1 + m) { stream := .opened bs (some er), errno := e } =
        cs.map .data ++ List.replicate (m + 1) .fail := by
  have hbad : ∀ (m : Nat) {i : StdInput}, i.stream.eof = false → i.stream.bad = true → i.stream.fault = some er →
      i.events n m = List.replicate m .fail := by
    intro m
    induction m with
    | zero => intros; rfl
    | succ m ih =>
      intro i h1 h2 h3
      have hev : i.event n = (.fail, { stream := i.stream, errno := er }) := by
        unfold StdInput.event StdInput.read StdStream.read
        rw [if_pos (.inr h2)]
        simp [h1, StdStream.errno, h3, he]
      unfold StdInput.events
      rw [hev, ih (i := { stream := i.stream, errno := er }) h1 h2 h3]
      rfl
  have key : ∀ (q : Nat) (bs : List Byte), bs.length / n = q → ∃ cs : List (List Byte), (∀ c ∈ cs, c.length = n) ∧
      cs.flatten = bs.take (q * n) ∧
      ∀ e m, StdInput.events n (cs.length + 1 + m) { stream := .opened bs (some er), errno := e } =
        cs.map .data ++ List.replicate (m + 1) .fail := by
    intro q
    induction q with
    | zero =>
      intro bs hq
      have hlt : bs.length < n := by
        rcases Nat.lt_or_ge bs.length n with h | h
        · exact h
        · have := Nat.div_pos h hn
          omega
      refine ⟨[], fun c hc => (nomatch hc), by simp, fun e m => ?_⟩
      have hev : StdInput.event n { stream := .opened bs (some er), errno := e } =
          (.fail, { stream := { rest := [], fault := some er, eof := false, bad := true }, errno := er }) := by
        unfold StdInput.event StdInput.read StdStream.read StdStream.opened
        simp [show ¬ n ≤ bs.length by omega, StdStream.errno, he]
      rw [List.length_nil, Nat.zero_add, Nat.add_comm]
      unfold StdInput.events
      rw [hev, hbad m rfl rfl rfl]
      rfl
    | succ q ih =>
      intro bs hq
      have hle : n ≤ bs.length := by
        rcases Nat.lt_or_ge bs.length n with h | h
        · rw [Nat.div_eq_of_lt h] at hq
          omega
        · exact h
      obtain ⟨cs, h1, h2, h3⟩ := ih (bs.drop n) (by
        rw [List.length_drop]
        have := Nat.sub_mul_div_of_le bs.length n 1 (by omega)
        rw [Nat.mul_one] at this
        omega)
      refine ⟨bs.take n :: cs, ?_, ?_, fun e m => ?_⟩
      · intro c hc
        rcases List.mem_cons.1 hc with rfl | hc
        · rw [List.length_take]
          omega
        · exact h1 c hc
      · rw [List.flatten_cons, h2, Nat.succ_mul, Nat.add_comm, List.take_add]
      · rw [List.length_cons, show cs.length + 1 + 1 + m = cs.length + 1 + m + 1 by omega]
        unfold StdInput.events
        rw [StdInput.event_full hle, h3]
        rfl
  exact key _ bs rfl

example : StdInput.events 2 4 { stream := .opened [1, 2, 3] (some 5), errno := 0 } = [.data [1, 2], .fail, .fail, .fail] := by
  decide +kernel

/-- A stream can be given to another `StdInputStream`, which continues behind the bytes read, if and only if no read has asked for
more bytes than there are; if one did, then the constructor of the other one throws. This holds for streams that fail, too. -/
theorem C72_again (bs : List Byte) (f : Option Nat) (ns : List Nat) : ∀ e,
    StdInput.mk' (ns.foldl (fun i n => (i.read n).2) { stream := .opened bs f, errno := e : StdInput }).stream =
      if ns.sum ≤ bs.length then some { stream := .opened (bs.drop ns.sum) f, errno := 0 } else none := by
  have dead : ∀ (ns : List Nat) (i : StdInput), i.stream.eof = true ∨ i.stream.bad = true →
      StdInput.mk' (ns.foldl (fun i n => (i.read n).2) i).stream = none := by
    intro ns
    induction ns with
    | nil => intro i h; exact if_pos h
    | cons n ns ih =>
      intro i h
      refine ih _ ?_
      have hr : i.stream.read n = (([], true), i.stream) := if_pos h
      show (StdInput.read n i).2.stream.eof = true ∨ (StdInput.read n i).2.stream.bad = true
      unfold StdInput.read
      rw [hr]
      cases h1 : i.stream.eof with
      | true => exact .inl (by simp [h1])
      | false => exact .inr (by simpa [h1] using h)
  induction ns generalizing bs with
  | nil => intro e; simp [StdInput.mk', StdStream.opened]
  | cons n ns ih =>
    intro e
    rw [List.foldl_cons, List.sum_cons]
    by_cases h : n ≤ bs.length
    · have hr : StdInput.read n { stream := .opened bs f, errno := e } = (bs.take n, { stream := .opened (bs.drop n) f, errno := 0 }) := by
        unfold StdInput.read StdStream.read StdStream.opened
        simp [h]
      rw [hr, ih (bs.drop n) 0, List.length_drop, List.drop_drop]
      by_cases h2 : n + ns.sum ≤ bs.length
      · rw [if_pos (by omega), if_pos h2]
      · rw [if_neg (by omega), if_neg h2]
    · rw [if_neg (by omega)]
      refine dead _ _ ?_
      unfold StdInput.read StdStream.read StdStream.opened
      cases f with
      | none => exact .inl (by simp [h])
      | some x => exact .inr (by simp [h])

example : StdInput.mk' ([2, 1].foldl (fun i n => (i.read n).2) { stream := .opened [1, 2, 3, 4, 5], errno := 0 : StdInput }).stream =
      some { stream := .opened [4, 5], errno := 0 } ∧
    StdInput.mk' ([2, 4].foldl (fun i n => (i.read n).2) { stream := .opened [1, 2, 3, 4, 5], errno := 0 : StdInput }).stream = none ∧
    StdInput.mk' ([2, 4].foldl (fun i n => (i.read n).2) { stream := .opened [1, 2, 3, 4, 5] (some 5), errno := 0 : StdInput }).stream = none := by
  decide +kernel

end TW
