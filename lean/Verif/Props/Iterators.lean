import Verif.Proofs.Sources

/-!
# Properties of the source iterators (C14, C15, C16)
-/

namespace TW

open Spec

/-- `k` times `++it`. -/
def incrN {ι : Type} [Iter ι] : Nat → M ι Unit
  | 0 => pure ()
  | k + 1 => do incrN k; Iter.incr

/-- C14 does not hold for strings of 4 GiB and more: the size is kept in 32 bit, a
string of exactly 2^32 bytes is taken for the empty string. -/
theorem C14_cstring_false :
    ∃ src : List Byte, src[0]? = some 65 ∧ (CStr.mk' src).deref = .ok 0 := by
  obtain ⟨n, hn⟩ : ∃ n, n = 2 ^ 32 := ⟨_, rfl⟩
  refine ⟨List.replicate n 65, ?_, ?_⟩
  · rw [List.getElem?_replicate, if_pos (by omega)]
  · have h : (List.replicate n 65).length % 2 ^ 32 = 0 := by
      rw [List.length_replicate, hn, Nat.mod_self]
    unfold CStr.deref CStr.mk'
    rw [h]
    rfl

/-- C14, what holds: for strings shorter than 4 GiB, after `k` increments, `k < 2^32`,
the iterator gives byte `k` of the string or null behind its end, and `k` as position.
Missing are longer strings. -/
theorem C14_cstring_partial (src : List Byte) (hl : src.length < 2 ^ 32) (k : Nat)
    (hk : k < 2 ^ 32) :
    ∃ it, incrN k (CStr.mk' src) = (.ok (), it) ∧ it.deref = .ok (src[k]?.getD 0) ∧
      it.pos = k := by
  have key : ∀ k, k < 2 ^ 32 → incrN k (CStr.mk' src) = (.ok (), ⟨src, src.length, k⟩) := by
    intro k
    induction k with
    | zero => intro _; simp only [incrN, CStr.mk', Nat.mod_eq_of_lt hl]; rfl
    | succ k ih =>
      intro h
      show (incrN k >>= fun _ => Iter.incr) _ = _
      rw [M.bind_ok (ih (by omega))]
      simp only [Iter.incr, CStr.incr, M.modify, Nat.mod_eq_of_lt h]
  refine ⟨_, key k hk, ?_, rfl⟩
  simp only [CStr.deref]
  split
  · rename_i h
    rw [List.getElem?_eq_getElem h]; rfl
  · rename_i h
    rw [List.getElem?_eq_none (by omega)]; rfl

example : ∃ it, incrN 1 (CStr.mk' [7, 8]) = (.ok (), it) ∧ it.deref = .ok 8 ∧ it.pos = 1 :=
  C14_cstring_partial [7, 8] (by decide) 1 (by decide)

theorem deliver_chunks (cs : List (List Byte)) (hne : ∀ c ∈ cs, c ≠ []) (tl : List ReadEvent) :
    deliver (cs.map .data ++ tl) = cs.flatten ++ deliver tl := by
  induction cs with
  | nil => rfl
  | cons c cs ih =>
    have ih := ih fun d hd => hne d (List.mem_cons_of_mem _ hd)
    cases c with
    | nil => exact absurd rfl (hne [] List.mem_cons_self)
    | cons b bs => simp [deliver, ih]

theorem failing_chunks (cs : List (List Byte)) (tl : List ReadEvent) :
    failing (cs.map .data ++ tl) = failing tl := by
  induction cs with
  | nil => rfl
  | cons c cs ih => simpa [failing] using ih

/-- C15. Let the stream be read in any pieces that are not empty and fit into the
buffer. After `k` increments the iterator gives byte `k` of the stream or null behind
its end; the position is the number of bytes of the stream that were passed. -/
theorem C15_istream (bufsize : Nat) (cs : List (List Byte)) (hne : ∀ c ∈ cs, c ≠ [])
    (hsz : ∀ c ∈ cs, c.length ≤ bufsize) (k : Nat) :
    ∃ it0 it, IStreamIt.mk' (cs.map .data) bufsize = (.ok (), it0) ∧
      incrN k it0 = (.ok (), it) ∧ it.deref = .ok (cs.flatten[k]?.getD 0) ∧
      it.position = min k cs.flatten.length := by
  have hdel : deliver (cs.map .data) = cs.flatten := by
    have := deliver_chunks cs hne []
    simpa [deliver] using this
  have hfail : failing (cs.map .data) = false := by
    have := failing_chunks cs []
    simpa [failing] using this
  have hg : GoodReads bufsize (cs.map .data) := by
    intro bs hbs
    obtain ⟨c, hc, h⟩ := List.mem_map.1 hbs
    cases h
    exact hsz bs hc
  have hn : NoEmpty (cs.map .data) := by
    intro h
    obtain ⟨c, hc, h⟩ := List.mem_map.1 h
    cases h
    exact hne _ hc rfl
  rcases IStreamIt.Rel.init (cs.map .data) bufsize true hg (fun _ => hn) with
    ⟨it0, h1, h2⟩ | ⟨_, _, h3, _⟩
  · have : ∃ it, incrN k it0 = (.ok (), it) ∧
        it.Rel (deliver (cs.map .data)) (failing (cs.map .data)) true k := by
      induction k with
      | zero => exact ⟨it0, rfl, h2⟩
      | succ k ih =>
        obtain ⟨it1, h3, h4⟩ := ih
        rcases h4.step with ⟨it2, h5, h6⟩ | ⟨_, _, h5, _⟩
        · refine ⟨it2, ?_, h6⟩
          show (incrN k >>= fun _ => Iter.incr) it0 = _
          rw [M.bind_ok h3]
          exact h5
        · rw [hfail] at h5; cases h5
    obtain ⟨it, h3, h4⟩ := this
    refine ⟨it0, it, h1, h3, ?_, ?_⟩
    · rw [h4.get, hdel, strm, List.getD_eq_getElem?_getD]
    · rw [h4.pos rfl, hdel]
  · rw [hfail] at h3; cases h3

example : ∃ it0 it, IStreamIt.mk' ([[1, 2], [3]].map .data) 4 = (.ok (), it0) ∧
    incrN 2 it0 = (.ok (), it) ∧ it.deref = .ok 3 ∧ it.position = 2 :=
  C15_istream 4 [[1, 2], [3]] (by decide) (by decide) 2

/-- C15, failing reads. If a read fails after `n` bytes were delivered, the exception
is raised by the increment that leaves byte `n-1`, not before. -/
theorem C15_istream_failure (bufsize : Nat) (cs : List (List Byte)) (hne : ∀ c ∈ cs, c ≠ [])
    (hsz : ∀ c ∈ cs, c.length ≤ bufsize) (h0 : cs ≠ []) (rest : List ReadEvent) :
    ∃ it0, IStreamIt.mk' (cs.map .data ++ .fail :: rest) bufsize = (.ok (), it0) ∧
      (∀ k, k < cs.flatten.length → ∃ it, incrN k it0 = (.ok (), it) ∧
        it.deref = .ok (cs.flatten[k]?.getD 0)) ∧
      ∃ it, incrN cs.flatten.length it0 = (.stop (.throw .FileReadError), it) := by
  -- the part of the schedule before the failure
  have inv : ∀ (cs : List (List Byte)) (_ : ∀ c ∈ cs, c ≠ []) (_ : ∀ c ∈ cs, c.length ≤ bufsize)
      (it0 : IStreamIt) (_ : it0.bufsize = bufsize)
      (_ : it0.input = cs.map .data ++ .fail :: rest)
      (whole : List Byte) (_ : it0.readpos < it0.buf.length)
      (_ : whole = it0.buf.drop it0.readpos ++ cs.flatten) (k : Nat), k < whole.length →
      ∃ (it : IStreamIt) (cs' : List (List Byte)), incrN k it0 = (.ok (), it) ∧ (∀ c ∈ cs', c ≠ []) ∧
        (∀ c ∈ cs', c.length ≤ bufsize) ∧ it.bufsize = bufsize ∧
        it.input = cs'.map .data ++ .fail :: rest ∧ it.readpos < it.buf.length ∧
        whole.drop k = it.buf.drop it.readpos ++ cs'.flatten := by
    intro cs h1 h2 it0 h3 h4 whole h5 h6 k
    induction k with
    | zero => intro _; exact ⟨it0, cs, rfl, h1, h2, h3, h4, h5, h6⟩
    | succ k ih =>
      intro hk
      obtain ⟨it1, cs1, g1, g2, g3, g4, g5, g6, g7⟩ := ih (by omega)
      have hrun : incrN (k + 1) it0 = IStreamIt.incr it1 := by
        show (incrN k >>= fun _ => Iter.incr) it0 = _
        rw [M.bind_ok g1]; rfl
      have hdrop : whole.drop (k + 1) = (whole.drop k).drop 1 := by rw [List.drop_drop]
      rw [hrun, hdrop, g7]
      unfold IStreamIt.incr
      by_cases hb : it1.buf.length ≤ it1.readpos + 1
      · rw [if_pos hb]
        unfold IStreamIt.fillbuf
        rw [g5]
        have hd : (it1.buf.drop it1.readpos ++ cs1.flatten).drop 1 = cs1.flatten := by
          rw [List.drop_append_of_le_length (by simp; omega), List.drop_drop,
            List.drop_of_length_le (by omega), List.nil_append]
        rw [hd]
        cases cs1 with
        | nil =>
          have := congrArg List.length g7
          simp at this
          omega
        | cons c cs1 =>
          have hc := g3 c List.mem_cons_self
          have hc' := g2 c List.mem_cons_self
          simp only [List.map_cons, List.cons_append, g4, if_pos hc]
          refine ⟨_, cs1, rfl, fun d hd => g2 d (List.mem_cons_of_mem _ hd),
            fun d hd => g3 d (List.mem_cons_of_mem _ hd), rfl, rfl, ?_, ?_⟩
          · exact List.length_pos_iff.2 hc'
          · simp
      · rw [if_neg hb]
        refine ⟨_, cs1, rfl, g2, g3, g4, g5, by simp only; omega, ?_⟩
        rw [List.drop_append_of_le_length (by simp; omega), List.drop_drop]
  cases cs with
  | nil => exact absurd rfl h0
  | cons c cs =>
    have hc := hsz c List.mem_cons_self
    have hc' := hne c List.mem_cons_self
    have hlen : 0 < c.length := List.length_pos_iff.2 hc'
    have I := inv cs (fun d hd => hne d (List.mem_cons_of_mem _ hd))
      (fun d hd => hsz d (List.mem_cons_of_mem _ hd))
      { input := cs.map .data ++ .fail :: rest, bufsize, buf := c, readpos := 0, abspos := 0 }
      rfl rfl (c :: cs).flatten hlen (by simp)
    refine ⟨{ input := cs.map .data ++ .fail :: rest, bufsize, buf := c, readpos := 0, abspos := 0 },
      ?_, ?_, ?_⟩
    · simp [IStreamIt.mk', IStreamIt.fillbuf, hc]
    · intro k hk
      obtain ⟨it, cs', g1, -, -, -, -, g6, g7⟩ := I k hk
      refine ⟨it, g1, ?_⟩
      unfold IStreamIt.deref
      have : (c :: cs).flatten[k]? = ((c :: cs).flatten.drop k)[0]? := by
        rw [List.getElem?_drop]; rfl
      rw [this, g7, List.getElem?_append_left (by simp; omega), List.getElem?_drop, Nat.add_zero,
        List.getElem?_eq_getElem g6]
      rfl
    · obtain ⟨it, cs', g1, g2, -, -, g5, g6, g7⟩ := I ((c :: cs).flatten.length - 1)
        (by simp; omega)
      have hl := congrArg List.length g7
      have hp : 0 < (c :: cs).flatten.length := by simp; omega
      simp only [List.length_drop, List.length_append] at hl
      have hcs : cs' = [] := by
        cases cs' with
        | nil => rfl
        | cons d ds =>
          have := List.length_pos_iff.2 (g2 d List.mem_cons_self)
          simp only [List.flatten_cons, List.length_append] at hl
          omega
      rw [show (c :: cs).flatten.length = (c :: cs).flatten.length - 1 + 1 by omega]
      have hrun : incrN ((c :: cs).flatten.length - 1 + 1)
          ({ input := cs.map .data ++ .fail :: rest, bufsize, buf := c, readpos := 0,
             abspos := 0 } : IStreamIt) = IStreamIt.incr it := by
        show (incrN _ >>= fun _ => Iter.incr) _ = _
        rw [M.bind_ok g1]; rfl
      rw [hrun]
      unfold IStreamIt.incr
      subst hcs
      simp only [List.flatten_nil, List.length_nil, Nat.add_zero] at hl
      rw [if_pos (by omega)]
      unfold IStreamIt.fillbuf
      rw [g5]
      exact ⟨_, rfl⟩

example : ∃ it0, IStreamIt.mk' ([[1, 2], [3]].map .data ++ [.fail]) 4 = (.ok (), it0) ∧
    (∀ k, k < 3 → ∃ it, incrN k it0 = (.ok (), it) ∧ it.deref = .ok ([1, 2, 3][k]?.getD 0)) ∧
    ∃ it, incrN 3 it0 = (.stop (.throw .FileReadError), it) :=
  C15_istream_failure 4 [[1, 2], [3]] (by decide) (by decide) (by decide) []

/-- Read one byte and go on; whenever the end of message is signalled feed the next
chunk (with end of message address or, if the flag is not set, without). `none` if
there is no chunk any more. The second component is the position at which the iterator
stands after the read attempt. -/
def pull : List (List Byte × Bool) → SrcIt → (Option Byte × Nat) × List (List Byte × Bool) × SrcIt
  | cs, it =>
    match it.deref with
    | .ok b => ((some b, it.position), cs, (SrcIt.incr it).2)
    | .stop _ =>
      match cs with
      | [] => ((none, it.position), [], it)
      | (c, e) :: cs => pull cs (it.putInput c e)
  termination_by cs => cs.length

/-- `n` attempts to read a byte. -/
def pulls : Nat → List (List Byte × Bool) → SrcIt → List (Option Byte × Nat)
  | 0, _, _ => []
  | n + 1, cs, it => (pull cs it).1 :: pulls n (pull cs it).2.1 (pull cs it).2.2

theorem pulls_sig (all : List Byte) (cs : List (List Byte)) (it : SrcIt) (k : Nat)
    (he : it.eom = true) (hi : it.itr ≤ it.chunk.length)
    (hp : it.abspos + it.itr = k + it.chunk.length)
    (ha : all.drop k = it.chunk.drop it.itr ++ cs.flatten) (hk : k ≤ all.length) (n : Nat) :
    pulls n (cs.map fun c => (c, true)) it
      = (List.range' k n).map fun i => (all[i]?, min i all.length) := by
  have hpos : it.position = k := by simp only [SrcIt.position]; omega
  induction n generalizing cs it k with
  | zero => rfl
  | succ n ihn =>
    rw [List.range'_succ, List.map_cons, pulls]
    have hget : all[k]? = (all.drop k)[0]? := by rw [List.getElem?_drop]; rfl
    induction cs generalizing it with
    | nil =>
      unfold pull
      cases hc : it.chunk[it.itr]? with
      | some b =>
        have hlt : it.itr < it.chunk.length := by
          apply Decidable.byContradiction
          intro h
          rw [List.getElem?_eq_none (by omega)] at hc
          cases hc
        have hb : (it.chunk.drop it.itr)[0]? = some b := by rw [List.getElem?_drop]; simpa using hc
        have hak : all[k]? = some b := by
          rw [hget, ha, List.getElem?_append_left (by simp; omega), hb]
        have hkl : k < all.length := by
          apply Decidable.byContradiction
          intro h
          rw [List.getElem?_eq_none (by omega)] at hak
          cases hak
        simp only [SrcIt.deref, hc]
        rw [hak, hpos, Nat.min_eq_left hk]
        congr 1
        apply ihn [] _ (k + 1)
        · exact he
        · exact hlt
        · simp only [SrcIt.incr, M.modify]; omega
        · rw [show all.drop (k + 1) = (all.drop k).drop 1 by rw [List.drop_drop], ha,
            List.drop_append_of_le_length (by simp; omega), List.drop_drop]
          rfl
        · omega
        · simp only [SrcIt.position, SrcIt.incr, M.modify]; omega
      | none =>
        have hge : it.chunk.length ≤ it.itr := by simpa using hc
        have hall : all.drop k = [] := by
          rw [ha, List.drop_of_length_le hge]; rfl
        have hkl : all.length ≤ k := by simpa using hall
        simp only [SrcIt.deref, hc, he, if_true, List.map_nil]
        rw [List.getElem?_eq_none hkl, hpos, Nat.min_eq_right hkl, show k = all.length by omega]
        congr 1
        have : ∀ n j, all.length ≤ j → pulls n [] it
            = (List.range' j n).map fun i => (all[i]?, min i all.length) := by
          intro n
          induction n with
          | zero => intros; rfl
          | succ n ih =>
            intro j hj
            have : pull [] it = ((none, k), [], it) := by
              unfold pull
              simp only [SrcIt.deref, hc, he, if_true, hpos]
            rw [List.range'_succ, List.map_cons, pulls, this, List.getElem?_eq_none hj,
              Nat.min_eq_right hj, show k = all.length by omega]
            simp only
            rw [ih (j + 1) (by omega)]
        exact this n _ (by omega)
    | cons c cs ihc =>
      unfold pull
      cases hc : it.chunk[it.itr]? with
      | some b =>
        have hlt : it.itr < it.chunk.length := by
          apply Decidable.byContradiction
          intro h
          rw [List.getElem?_eq_none (by omega)] at hc
          cases hc
        have hb : (it.chunk.drop it.itr)[0]? = some b := by rw [List.getElem?_drop]; simpa using hc
        have hak : all[k]? = some b := by
          rw [hget, ha, List.getElem?_append_left (by simp; omega), hb]
        have hkl : k < all.length := by
          apply Decidable.byContradiction
          intro h
          rw [List.getElem?_eq_none (by omega)] at hak
          cases hak
        simp only [SrcIt.deref, hc]
        rw [hak, hpos, Nat.min_eq_left hk]
        congr 1
        apply ihn (c :: cs) _ (k + 1)
        · exact he
        · exact hlt
        · simp only [SrcIt.incr, M.modify]; omega
        · rw [show all.drop (k + 1) = (all.drop k).drop 1 by rw [List.drop_drop], ha,
            List.drop_append_of_le_length (by simp; omega), List.drop_drop]
          rfl
        · omega
        · simp only [SrcIt.position, SrcIt.incr, M.modify]; omega
      | none =>
        have hge : it.chunk.length ≤ it.itr := by simpa using hc
        simp only [SrcIt.deref, hc, he, if_true, List.map_cons]
        apply ihc (it.putInput c true)
        · rfl
        · exact Nat.zero_le _
        · simp only [SrcIt.putInput]; omega
        · rw [ha, List.drop_of_length_le hge]
          simp [SrcIt.putInput]
        · simp only [SrcIt.putInput, SrcIt.position]; omega

/-- C16. Reading from any sequence of chunks (empty ones included) that are fed whenever
the end of message is signalled gives the concatenation of the chunks; the end is
signalled exactly when all bytes fed are read; and the position is the absolute offset.
 -/
theorem C16_chunks (c0 : List Byte) (cs : List (List Byte)) (n : Nat) :
    pulls n (cs.map fun c => (c, true)) (SrcIt.mk' c0 true)
      = (List.range n).map fun i => ((c0 :: cs).flatten[i]?, min i (c0 :: cs).flatten.length) := by
  rw [pulls_sig (c0 :: cs).flatten cs (SrcIt.mk' c0 true) 0 rfl (Nat.zero_le _)
    (by simp [SrcIt.mk']) (by simp [SrcIt.mk']) (Nat.zero_le _), List.range_eq_range']

example : pulls 4 ([[], [3]].map fun c => (c, true)) (SrcIt.mk' [1, 2] true)
    = [(some 1, 0), (some 2, 1), (some 3, 2), (none, 3)] := C16_chunks [1, 2] [[], [3]] 4

/-- C16 with a last chunk. A chunk without end of message address is followed by null
bytes without end. -/
theorem C16_last_chunk (c : List Byte) (k : Nat) :
    ∃ it, incrN k (SrcIt.mk' c false) = (.ok (), it) ∧ it.deref = .ok (c[k]?.getD 0) ∧
      it.position = k := by
  have key : incrN k (SrcIt.mk' c false) = (.ok (), ⟨c, k, false, c.length⟩) := by
    induction k with
    | zero => rfl
    | succ k ih =>
      show (incrN k >>= fun _ => Iter.incr) _ = _
      rw [M.bind_ok ih]
      rfl
  refine ⟨_, key, ?_, ?_⟩
  · unfold SrcIt.deref
    cases c[k]? <;> simp
  · simp [SrcIt.position]

example : ∃ it, incrN 1 (SrcIt.mk' [1, 2] false) = (.ok (), it) ∧ it.deref = .ok 2 ∧
    it.position = 1 := C16_last_chunk [1, 2] 1

end TW
