import Verif.Proofs.Source
import Verif.Spec.Sources

/-!
# The iterators are views of byte streams
-/

namespace TW

open Spec

theorem strm_lt (bs : List Byte) (h : ∀ b ∈ bs, b < 256) (k : Nat) : strm bs k < 256 := by
  unfold strm
  rw [List.getD_eq_getElem?_getD]
  cases hk : bs[k]? with
  | none => simp
  | some b => simpa using h b (List.mem_of_getElem? hk)

theorem strm_end (bs : List Byte) (k : Nat) (h : bs.length ≤ k) : strm bs k = 0 := by
  rw [strm, List.getD_eq_getElem?_getD, List.getElem?_eq_none h]; rfl

theorem strm_get (bs : List Byte) (k : Nat) (h : k < bs.length) : bs[k]? = some (strm bs k) := by
  rw [strm, List.getD_eq_getElem?_getD, List.getElem?_eq_getElem h]; rfl

theorem slice_strm (bs : List Byte) (b n : Nat) (h : b + n ≤ bs.length) :
    slice (strm bs) b n = (bs.drop b).take n := by
  apply List.ext_getElem?
  intro i
  rw [slice, List.getElem?_map]
  by_cases hi : i < n
  · rw [List.getElem?_range hi, List.getElem?_take, if_pos hi, List.getElem?_drop,
      strm_get _ _ (by omega)]
    rfl
  · rw [List.getElem?_take, if_neg hi, List.getElem?_eq_none (by simp; omega)]
    rfl

theorem slice_strm_all (bs : List Byte) : slice (strm bs) 0 bs.length = bs := by
  rw [slice_strm _ _ _ (by omega)]; simp

/-! ## CStringIterator -/

theorem cyc_lt (src : List Byte) (h : ∀ b ∈ src, b < 256) (k : Nat) : cyc src k < 256 := by
  unfold cyc
  split
  · exact strm_lt src h _
  · omega

/-- A `CStringIterator` as view of the stream `cyc src`. -/
def cstrSource (src : List Byte) (h : ∀ b ∈ src, b < 256) : Source CStr (cyc src) where
  R it k := it.src = src ∧ it.size = src.length % 2 ^ 32 ∧ it.pos = k % 2 ^ 32
  RS _ := True
  av _ := True
  ic _ := True
  bd k := k < 2 ^ 32
  er _ := False
  er_ne := by intro _ h; exact h.elim
  deref_ok := by
    rintro it k ⟨h1, h2, h3⟩
    left
    refine ⟨?_, trivial⟩
    simp only [Iter.deref, CStr.deref, cyc]
    rw [h3, h2, h1]
    generalize k % 2 ^ 32 = j
    have hle : src.length % 2 ^ 32 ≤ src.length := Nat.mod_le _ _
    generalize src.length % 2 ^ 32 = n at hle
    by_cases hj : j < n
    · rw [if_pos hj, if_pos hj]
      have : src[j]? = some src[j] := List.getElem?_eq_getElem (by omega)
      rw [List.getD_eq_getElem?_getD, this]
      rfl
    · rw [if_neg hj, if_neg hj]
  incr_ok := by
    rintro it k ⟨h1, h2, h3⟩
    left
    refine ⟨_, rfl, h1, h2, ?_⟩
    simp only [h3]
    omega
  pos_ok := by
    rintro st it k - ⟨h1, h2, h3⟩ hk
    simp only [Iter.position]
    rw [h3, Nat.mod_eq_of_lt hk]
  wrap := False
  wrap_ok := by intro h; exact h.elim
  bd_lt := by intro k hk; omega
  bd_mono := by intro j k _ _; omega
  av_mono := by intros; trivial
  bytes := cyc_lt src h

theorem cstrSource_start (src : List Byte) (h : ∀ b ∈ src, b < 256) :
    (cstrSource src h).R (CStr.mk' src) 0 := ⟨rfl, rfl, rfl⟩

/-! ## SrcIterator -/

/-- A `SrcIterator` that holds the bytes `b .. b+n` of the stream `f`, as a view of
`f`. Without end of message address the stream is null from there on. `pos` tells whether
it counts positions from the start of the stream. -/
def srcSource (f : Nat → Byte) (b n : Nat) (eom pos : Bool) (hb : ∀ k, f k < 256)
    (h0 : eom = false → ∀ k, b + n ≤ k → f k = 0) : Source SrcIt f where
  R it k := it.chunk = slice f b n ∧ it.eom = eom ∧ b ≤ k ∧ it.itr = k - b ∧
    (pos = true → it.abspos = b + n)
  RS _ := True
  av k := k < b + n ∨ eom = false
  ic _ := True
  bd k := pos = true ∧ k < 2 ^ 64
  er e := e = .eom
  er_ne := by intro e h; rw [h]; simp
  deref_ok := by
    rintro it k ⟨h1, h2, h3, h4, h5⟩
    simp only [Iter.deref, SrcIt.deref]
    rw [h1, h4, slice, List.getElem?_map]
    by_cases hk : k - b < n
    · left
      rw [List.getElem?_range hk]
      simp only [Option.map_some]
      rw [show b + (k - b) = k by omega]
      exact ⟨rfl, .inl (by omega)⟩
    · rw [List.getElem?_eq_none (by simp; omega)]
      simp only [Option.map_none, h2]
      cases eom with
      | true => right; exact ⟨.eom, by simp, rfl, by simp; omega⟩
      | false => left; rw [h0 rfl k (by omega)]; simp
  incr_ok := by
    rintro it k ⟨h1, h2, h3, h4, h5⟩
    left
    refine ⟨_, rfl, h1, h2, by omega, ?_, h5⟩
    simp only [h4]
    omega
  pos_ok := by
    rintro st it k - ⟨h1, h2, h3, h4, h5⟩ hk
    simp only [Iter.position, SrcIt.position, h1, h4, h5 hk.1]
    simp [slice]
    omega
  wrap := pos = true
  wrap_ok := by
    rintro hk st it k - ⟨h1, h2, h3, h4, h5⟩
    simp only [Iter.position, SrcIt.position, h1, h4, h5 hk]
    simp [slice]
    omega
  bd_lt := by intro k hk; exact hk.2
  bd_mono := by intro j k _ h; exact ⟨h.1, by have := h.2; omega⟩
  av_mono := by intro j k h h'; rcases h' with h' | h'; exact .inl (by omega); exact .inr h'
  bytes := hb

/-! ## char* -/

/-- A pointer into the array `mem` as view of its bytes. -/
def ptrSource (mem : List Byte) (h : ∀ b ∈ mem, b < 256) : Source CharPtr (strm mem) where
  R it k := it.mem = mem ∧ it.pos = k ∧ k ≤ mem.length
  RS st := st.pos = 0
  av k := k < mem.length
  ic k := k < mem.length
  bd k := k < 2 ^ 64
  er e := e = .ub
  er_ne := by intro e h; rw [h]; simp
  deref_ok := by
    rintro it k ⟨rfl, rfl, h3⟩
    simp only [Iter.deref, CharPtr.deref]
    by_cases hk : it.pos < it.mem.length
    · left
      have : it.mem[it.pos]? = some it.mem[it.pos] := List.getElem?_eq_getElem hk
      rw [this, strm, List.getD_eq_getElem?_getD, this]
      exact ⟨rfl, hk⟩
    · right
      rw [List.getElem?_eq_none (by omega)]
      exact ⟨.ub, rfl, rfl, hk⟩
  incr_ok := by
    rintro it k ⟨rfl, rfl, h3⟩
    simp only [Iter.incr, CharPtr.incr]
    by_cases hk : it.pos < it.mem.length
    · left
      rw [if_pos hk]
      exact ⟨_, rfl, rfl, rfl, hk⟩
    · right
      rw [if_neg hk]
      exact ⟨.ub, _, rfl, rfl, by simp, hk⟩
  pos_ok := by
    rintro st it k hst ⟨h1, h2, h3⟩ hk
    simp only [Iter.position, h2, hst]
    omega
  wrap := True
  wrap_ok := by
    rintro - st it k hst ⟨h1, h2, h3⟩
    simp only [Iter.position, h2, hst]
    omega
  bd_lt := by intro k hk; exact hk
  bd_mono := by intro j k _ _; omega
  av_mono := by intro j k _ _; omega
  bytes := strm_lt mem h

theorem ptrSource_start (mem : List Byte) (h : ∀ b ∈ mem, b < 256) :
    (ptrSource mem h).R { mem, pos := 0 } 0 ∧ (ptrSource mem h).RS { mem, pos := 0 } :=
  ⟨⟨rfl, rfl, Nat.zero_le _⟩, rfl⟩

/-- A pointer into an array that begins with `pre`, as view of the bytes `mem` behind; the first pointer was at their begin. -/
def ptrAt (pre mem : List Byte) (h : ∀ b ∈ mem, b < 256) : Source CharPtr (strm mem) where
  R it k := it.mem = pre ++ mem ∧ it.pos = pre.length + k ∧ k ≤ mem.length
  RS st := st.pos = pre.length
  av k := k < mem.length
  ic k := k < mem.length
  bd k := k < 2 ^ 64
  er e := e = .ub
  er_ne := by intro e h; rw [h]; simp
  deref_ok := by
    rintro it k ⟨h1, h2, h3⟩
    simp only [Iter.deref, CharPtr.deref, h1, h2]
    rw [List.getElem?_append_right (by omega), Nat.add_sub_cancel_left]
    by_cases hk : k < mem.length
    · left
      have : mem[k]? = some mem[k] := List.getElem?_eq_getElem hk
      rw [this, strm, List.getD_eq_getElem?_getD, this]
      exact ⟨rfl, hk⟩
    · right
      rw [List.getElem?_eq_none (by omega)]
      exact ⟨.ub, rfl, rfl, hk⟩
  incr_ok := by
    rintro it k ⟨h1, h2, h3⟩
    simp only [Iter.incr, CharPtr.incr, h1, h2, List.length_append]
    by_cases hk : k < mem.length
    · left
      rw [if_pos (by omega)]
      exact ⟨_, rfl, rfl, by show pre.length + k + 1 = _; omega, hk⟩
    · right
      rw [if_neg (by omega)]
      exact ⟨.ub, _, rfl, rfl, by simp, hk⟩
  pos_ok := by
    rintro st it k hst ⟨h1, h2, h3⟩ hk
    simp only [Iter.position, h2, hst]
    omega
  wrap := True
  wrap_ok := by
    rintro - st it k hst ⟨h1, h2, h3⟩
    simp only [Iter.position, h2, hst]
    omega
  bd_lt := by intro k hk; exact hk
  bd_mono := by intro j k _ _; omega
  av_mono := by intro j k _ _; omega
  bytes := strm_lt mem h

theorem ptrAt_start (pre mem : List Byte) (h : ∀ b ∈ mem, b < 256) :
    (ptrAt pre mem h).R { mem := pre ++ mem, pos := pre.length } 0 ∧ (ptrAt pre mem h).RS { mem := pre ++ mem, pos := pre.length } :=
  ⟨⟨rfl, rfl, Nat.zero_le _⟩, rfl⟩

/-! ## IStreamIterator -/

/-- Relation of the iterator to the offset `k` in `whole`; `flt` tells whether a read
will fail, `ne` that no read is empty. -/
structure IStreamIt.Rel (whole : List Byte) (flt ne : Bool) (it : IStreamIt) (k : Nat) : Prop where
  good : GoodReads it.bufsize it.input
  flt : failing it.input = flt
  noem : ne = true → NoEmpty it.input
  data : (it.readpos < it.buf.length ∧ whole.drop k = it.buf.drop it.readpos ++ deliver it.input) ∨
    (it.buf = [] ∧ it.readpos = 0 ∧ ne = false ∧ whole.drop k = 0 :: deliver it.input) ∨
    (it.buf = [] ∧ it.readpos = 0 ∧ it.input = [] ∧ whole.length ≤ k)
  pos : ne = true → it.position = min k whole.length

theorem IStreamIt.fill {whole : List Byte} {flt ne : Bool} {it : IStreamIt} {k : Nat}
    (hg : GoodReads it.bufsize it.input) (hf : failing it.input = flt)
    (hn : ne = true → NoEmpty it.input) (hd : whole.drop k = deliver it.input)
    (hp : ne = true → it.abspos + it.buf.length = min k whole.length) :
    (∃ it', IStreamIt.fillbuf it = (.ok (), it') ∧ it'.Rel whole flt ne k) ∨
    ∃ it', IStreamIt.fillbuf it = (.stop (.throw .FileReadError), it') ∧ flt = true ∧
      whole.length ≤ k := by
  unfold IStreamIt.fillbuf
  cases hi : it.input with
  | nil =>
    left
    rw [hi] at hg hf hn hd
    refine ⟨_, rfl, hg, hf, hn, .inr (.inr ⟨rfl, rfl, rfl, ?_⟩), ?_⟩
    · simpa [deliver] using hd
    · intro h; simpa [IStreamIt.position] using hp h
  | cons ev es =>
    rw [hi] at hg hf hn hd
    cases ev with
    | fail =>
      right
      refine ⟨_, rfl, ?_, ?_⟩
      · rw [← hf]; rfl
      · simpa [deliver] using hd
    | data bs =>
      left
      have hl := hg bs (by simp)
      simp only [if_pos hl]
      refine ⟨_, rfl, ?_, hf, ?_, ?_, ?_⟩
      · intro cs hcs; exact hg cs (by simp [hcs])
      · intro h; have := hn h; simp only [NoEmpty, List.mem_cons, not_or] at this; exact this.2
      · cases bs with
        | nil =>
          right; left
          refine ⟨rfl, rfl, ?_, hd⟩
          cases ne with
          | false => rfl
          | true => have := hn rfl; simp [NoEmpty] at this
        | cons b bs => left; exact ⟨by simp, by simpa [deliver] using hd⟩
      · intro h; simpa [IStreamIt.position] using hp h

theorem IStreamIt.Rel.step {whole : List Byte} {flt ne : Bool} {it : IStreamIt} {k : Nat}
    (h : it.Rel whole flt ne k) :
    (∃ it', IStreamIt.incr it = (.ok (), it') ∧ it'.Rel whole flt ne (k + 1)) ∨
    ∃ it', IStreamIt.incr it = (.stop (.throw .FileReadError), it') ∧ flt = true ∧
      whole.length ≤ k + 1 := by
  obtain ⟨hg, hf, hn, hd, hp⟩ := h
  have hdrop : whole.drop (k + 1) = (whole.drop k).drop 1 := by rw [List.drop_drop]
  unfold IStreamIt.incr
  by_cases hb : it.buf.length ≤ it.readpos + 1
  · rw [if_pos hb]
    apply IStreamIt.fill hg hf hn
    · rw [hdrop]
      rcases hd with ⟨h1, h2⟩ | ⟨h1, h2, h3, h4⟩ | ⟨h1, h2, h3, h4⟩
      · have : it.readpos = it.buf.length - 1 := by omega
        rw [h2, List.drop_append_of_le_length (by simp; omega), List.drop_drop,
          List.drop_of_length_le (by omega), List.nil_append]
      · rw [h4]; rfl
      · rw [h3, List.drop_of_length_le (by omega : whole.length ≤ k)]; rfl
    · intro h
      have hpos := hp h
      simp only [IStreamIt.position] at hpos
      rcases hd with ⟨h1, h2⟩ | ⟨h1, h2, h3, h4⟩ | ⟨h1, h2, h3, h4⟩
      · have := congrArg List.length h2
        simp at this
        omega
      · simp [h] at h3
      · simp only [h1, List.length_nil]
        omega
  · rw [if_neg hb]
    left
    refine ⟨_, rfl, hg, hf, hn, ?_, ?_⟩
    · rcases hd with ⟨h1, h2⟩ | ⟨h1, h2, h3, h4⟩ | ⟨h1, h2, h3, h4⟩
      · left
        refine ⟨by simp only; omega, ?_⟩
        rw [hdrop, h2, List.drop_append_of_le_length (by simp; omega), List.drop_drop]
      · simp [h1] at hb
      · simp [h1] at hb
    · intro h
      have hpos := hp h
      simp only [IStreamIt.position] at hpos ⊢
      rcases hd with ⟨h1, h2⟩ | ⟨h1, h2, h3, h4⟩ | ⟨h1, h2, h3, h4⟩
      · have := congrArg List.length h2
        simp at this
        omega
      · simp [h1] at hb
      · simp [h1] at hb

theorem IStreamIt.Rel.get {whole : List Byte} {flt ne : Bool} {it : IStreamIt} {k : Nat}
    (h : it.Rel whole flt ne k) : it.deref = .ok (strm whole k) := by
  have hs : strm whole k = (whole.drop k)[0]?.getD 0 := by
    rw [strm, List.getD_eq_getElem?_getD, List.getElem?_drop]; rfl
  unfold IStreamIt.deref
  rcases h.data with ⟨h1, h2⟩ | ⟨h1, h2, h3, h4⟩ | ⟨h1, h2, h3, h4⟩
  · rw [hs, h2, List.getElem?_append_left (by simp; omega), List.getElem?_drop, Nat.add_zero,
      List.getElem?_eq_getElem h1]
    rfl
  · rw [hs, h4, h1]; rfl
  · rw [hs, List.drop_of_length_le h4, h1]; rfl

/-- An `IStreamIterator` on a schedule of reads as view of the delivered bytes. -/
def istreamSource (es : List ReadEvent) (ne : Bool) (h : ∀ b ∈ deliver es, b < 256) :
    Source IStreamIt (strm (deliver es)) where
  R it k := it.Rel (deliver es) (failing es) ne k
  RS _ := True
  av _ := True
  ic k := failing es = false ∨ k + 1 < (deliver es).length
  bd k := ne = true ∧ k ≤ (deliver es).length ∧ (deliver es).length < 2 ^ 64
  er e := e = .throw .FileReadError
  er_ne := by intro e h; rw [h]; simp
  deref_ok := by
    intro it k hr
    left
    exact ⟨hr.get, trivial⟩
  incr_ok := by
    intro it k hr
    rcases hr.step with ⟨it', h1, h2⟩ | ⟨it', h1, h2, h3⟩
    · left; exact ⟨it', h1, h2⟩
    · right
      refine ⟨_, it', h1, rfl, by simp, ?_⟩
      rw [h2]
      simp
      omega
  pos_ok := by
    rintro st it k - hr ⟨hn, hk, hl⟩
    simp only [Iter.position]
    rw [hr.pos hn]
    omega
  wrap := False
  wrap_ok := by intro h; exact h.elim
  bd_lt := by rintro k ⟨-, _, _⟩; omega
  bd_mono := by rintro j k hj ⟨hn, _, hl⟩; exact ⟨hn, by omega, hl⟩
  av_mono := by intros; trivial
  bytes := strm_lt _ h

/-- The iterator after construction. -/
theorem IStreamIt.Rel.init (es : List ReadEvent) (bufsize : Nat) (ne : Bool)
    (hg : GoodReads bufsize es) (hn : ne = true → NoEmpty es) :
    (∃ it, IStreamIt.mk' es bufsize = (.ok (), it) ∧ it.Rel (deliver es) (failing es) ne 0) ∨
    ∃ it, IStreamIt.mk' es bufsize = (.stop (.throw .FileReadError), it) ∧ failing es = true ∧
      deliver es = [] := by
  rcases IStreamIt.fill (whole := deliver es) (k := 0) (ne := ne)
    (it := { input := es, bufsize, buf := [], readpos := 0, abspos := 0 })
    hg rfl hn rfl (by simp) with h | ⟨it, h1, h2, h3⟩
  · exact .inl h
  · exact .inr ⟨it, h1, h2, by simpa using h3⟩

end TW
