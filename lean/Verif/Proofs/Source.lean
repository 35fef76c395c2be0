import Verif.Model.TextScanner
import Verif.Spec.Units

/-!
# Source iterators as views of a byte stream
-/

namespace TW

open Spec

/-- An iterator type seen as a view of the byte stream `f`. `R it k`: `it` is at
offset `k`. `av k`: the byte at offset `k` can be read. `ic k`: the iterator can be
moved from offset `k` to the next. `bd k`: offsets up to `k` are reported correctly
by `position`; `wrap`: all offsets are. `er e`: the iterator may stop with `e`. `RS` are the possible start iterators. -/
structure Source (ι : Type) [Iter ι] (f : Nat → Byte) where
  R : ι → Nat → Prop
  RS : ι → Prop
  av : Nat → Prop
  ic : Nat → Prop
  bd : Nat → Prop
  er : Stop → Prop
  er_ne : ∀ e, er e → e ≠ .fuel
  deref_ok : ∀ it k, R it k → (Iter.deref it = .ok (f k) ∧ av k) ∨
    ∃ e, Iter.deref it = .stop e ∧ er e ∧ ¬ av k
  incr_ok : ∀ it k, R it k → (∃ it', Iter.incr it = (.ok (), it') ∧ R it' (k + 1)) ∨
    ∃ e it', Iter.incr it = (.stop e, it') ∧ er e ∧ e ≠ .eom ∧ ¬ ic k
  pos_ok : ∀ st it k, RS st → R it k → bd k → Iter.position st it = k
  wrap : Prop
  wrap_ok : wrap → ∀ st it k, RS st → R it k → Iter.position st it = k
  bd_lt : ∀ k, bd k → k < 2 ^ 64
  bd_mono : ∀ j k, j ≤ k → bd k → bd j
  av_mono : ∀ j k, j ≤ k → av k → av j
  bytes : ∀ k, f k < 256

variable {ι : Type} [Iter ι] {f : Nat → Byte}

/-- The character buffer holds the first `p` bytes of the character at `k`. -/
structure CRel (S : Source ι f) (c : CB ι) (k p : Nat) : Prop where
  len : c.buf.length = 8
  pos : c.bufpos = p
  itr : S.R c.itr (k + p)
  data : ∀ i, i < p → c.buf[i]? = some (f (k + i))
  avail : ∀ i, i < p → S.av (k + i)

/-- Outcome of code on the character buffer for a character at `k`: `Q` if it
returns; if it stops then a byte with index from `lo` up to `hi` is not available,
and if it stops for lack of input the buffer still holds the bytes before this one. -/
def Tri (S : Source ι f) (k lo hi : Nat) {α : Type} (r : Res α × CB ι)
    (Q : α → CB ι → Prop) : Prop :=
  match r with
  | (.ok a, c) => Q a c
  | (.stop e, c) => S.er e ∧ ∃ p, lo ≤ p ∧ p < hi ∧ (¬ S.av (k + p) ∨ ¬ S.ic (k + p)) ∧
      (e = .eom → CRel S c k p ∧ ¬ S.av (k + p))

variable {S : Source ι f} {k lo hi : Nat}

theorem Tri.bind {α β : Type} {x : M (CB ι) α} {g : α → M (CB ι) β} {c : CB ι}
    {Q' : α → CB ι → Prop} {Q : β → CB ι → Prop}
    (h : Tri S k lo hi (x c) Q') (h' : ∀ a c', Q' a c' → Tri S k lo hi (g a c') Q) :
    Tri S k lo hi ((x >>= g) c) Q := by
  rw [M.bind_run]
  generalize hx : x c = r at h
  rcases r with ⟨r, c'⟩
  cases r with
  | ok a => exact h' a c' h
  | stop e => exact h

theorem Tri.mono {α : Type} {r : Res α × CB ι} {Q Q' : α → CB ι → Prop} {hi' : Nat}
    (h : Tri S k lo hi r Q) (hh : hi ≤ hi') (h' : ∀ a c, Q a c → Q' a c) : Tri S k lo hi' r Q' := by
  rcases r with ⟨r, c'⟩
  cases r with
  | ok a => exact h' a c' h
  | stop e =>
    obtain ⟨h1, p, hlo, hp, hc⟩ := h
    exact ⟨h1, p, hlo, by omega, hc⟩

theorem Tri.pure {α : Type} {a : α} {c : CB ι} {Q : α → CB ι → Prop} (h : Q a c) :
    Tri S k lo hi ((Pure.pure a : M (CB ι) α) c) Q := h

namespace CRel

variable {c : CB ι} {p : Nat}

open CB

theorem fetch1 (h : CRel S c k p) (hp : p < 8) (hl : lo ≤ p) (hh : p < hi) :
    Tri S k lo hi (CB.fetch1 c) fun _ c' => CRel S c' k (p + 1) := by
  unfold CB.fetch1
  rcases S.deref_ok _ _ h.itr with ⟨hd, hav⟩ | ⟨e, hd, he, hav⟩
  · have h1 : (CB.deref : M (CB ι) Byte) c = (.ok (f (k + p)), c) := by simp [CB.deref, hd]
    rw [M.bind_ok h1]
    have h2 : (CB.bufposM : M (CB ι) Nat) c = (.ok p, c) := by simp [CB.bufposM, h.pos]
    rw [M.bind_ok h2]
    have h3 : (CB.store p (f (k + p)) : M (CB ι) Unit) c
        = (.ok (), { c with buf := c.buf.set p (f (k + p)) }) := by
      simp [CB.store, h.len, hp]
    rw [M.bind_ok h3]
    rcases S.incr_ok _ _ h.itr with ⟨it', hi1, hR⟩ | ⟨e, it', hi1, he, he', hic⟩
    · have h4 : (CB.incr : M (CB ι) Unit) { c with buf := c.buf.set p (f (k + p)) }
          = (.ok (), { c with buf := c.buf.set p (f (k + p)), itr := it' }) := by
        simp [CB.incr, hi1]
      rw [M.bind_ok h4]
      refine ⟨by simp [h.len], by simp [h.pos], hR, ?_, ?_⟩
      · intro i hi2
        by_cases hip : i = p
        · subst hip
          simp [h.len, hp]
        · simp only [List.getElem?_set]
          rw [if_neg (by omega)]
          exact h.data i (by omega)
      · intro i hi2
        by_cases hip : i = p
        · exact hip ▸ hav
        · exact h.avail i (by omega)
    · have h4 : (CB.incr : M (CB ι) Unit) { c with buf := c.buf.set p (f (k + p)) }
          = (.stop e, { c with buf := c.buf.set p (f (k + p)), itr := it' }) := by
        simp [CB.incr, hi1]
      rw [M.bind_stop h4]
      exact ⟨he, p, hl, hh, .inr hic, fun h => absurd h he'⟩
  · have h1 : (CB.deref : M (CB ι) Byte) c = (.stop e, c) := by simp [CB.deref, hd]
    rw [M.bind_stop h1]
    exact ⟨he, p, hl, hh, .inl hav, fun _ => ⟨h, hav⟩⟩

theorem fetchN (n : Nat) : ∀ {c : CB ι} {p : Nat}, CRel S c k p → p + n ≤ 8 → lo ≤ p → p + n ≤ hi →
    Tri S k lo hi (CB.fetchN n c) fun _ c' => CRel S c' k (p + n) := by
  induction n with
  | zero => intro c p h _ _ _; exact h
  | succ n ih =>
    intro c p h h8 hl hh
    refine Tri.bind (h.fetch1 (by omega) hl (by omega)) ?_
    intro _ c' h'
    have := ih h' (by omega) (by omega) (by omega)
    rw [show p + (n + 1) = p + 1 + n by omega]
    exact this

theorem fetchUpTo (h : CRel S c k p) {n : Nat} (hpn : p ≤ n) (hn : n ≤ 8) (hl : lo ≤ p) (hh : n ≤ hi) :
    Tri S k lo hi (CB.fetchUpTo n c) fun _ c' => CRel S c' k n := by
  unfold CB.fetchUpTo
  have h2 : (CB.bufposM : M (CB ι) Nat) c = (.ok p, c) := by simp [CB.bufposM, h.pos]
  rw [M.bind_ok h2]
  have := fetchN (S := S) (k := k) (lo := lo) (hi := hi) (n - p) h (by omega) hl (by omega)
  rw [show p + (n - p) = n by omega] at this
  exact this

theorem fetchFirst (h : CRel S c k p) (hl : lo ≤ p) (hh : 1 ≤ hi) :
    Tri S k lo hi (Enc.fetchFirst c) fun _ c' => CRel S c' k (max 1 p) := by
  unfold Enc.fetchFirst
  have h2 : (CB.bufposM : M (CB ι) Nat) c = (.ok p, c) := by simp [CB.bufposM, h.pos]
  rw [M.bind_ok h2]
  by_cases hp : p = 0
  · subst hp
    simp only [if_pos]
    exact h.fetch1 (by omega) (by omega) (by omega)
  · rw [if_neg hp, show max 1 p = p by omega]
    exact h

theorem fetch2 (h : CRel S c k p) (hl : lo ≤ p) (hh : 2 ≤ hi) :
    Tri S k lo hi (Enc.fetch2 c) fun _ c' => CRel S c' k (max 2 p) := by
  unfold Enc.fetch2
  have h2 : (CB.bufposM : M (CB ι) Nat) c = (.ok p, c) := by simp [CB.bufposM, h.pos]
  rw [M.bind_ok h2]
  by_cases hp : p < 2
  · rw [if_pos hp, show max 2 p = 1 + 1 by omega]
    by_cases hp0 : p < 1
    · rw [if_pos hp0]
      obtain rfl : p = 0 := by omega
      exact Tri.bind (h.fetch1 (by omega) (by omega) (by omega)) fun _ c' h' => h'.fetch1 (by omega) (by omega) (by omega)
    · rw [if_neg hp0]
      obtain rfl : p = 1 := by omega
      exact h.fetch1 (by omega) (by omega) (by omega)
  · rw [if_neg hp, show max 2 p = p by omega]
    exact h

theorem load (h : CRel S c k p) {i : Nat} (hip : i < p) :
    (CB.load i : M (CB ι) Byte) c = (.ok (f (k + i)), c) := by
  simp [CB.load, h.data i hip]

theorem take (h : CRel S c k p) : c.buf.take c.bufpos = slice f k p := by
  apply List.ext_getElem?
  intro i
  rw [h.pos, slice, List.getElem?_take, List.getElem?_map]
  by_cases hi : i < p
  · rw [if_pos hi, h.data i hi, List.getElem?_range hi]
    rfl
  · rw [if_neg hi, List.getElem?_eq_none (by simp; omega)]
    rfl

/-- `skipUpTo` moves the iterator to the end of the character. -/
theorem skipN (n : Nat) : ∀ {c : CB ι} {p : Nat}, c.buf.length = 8 → c.bufpos = p →
    S.R c.itr (k + p) → lo ≤ p → p + n ≤ hi → Tri S k lo hi (CB.skipN n c) fun _ c' =>
      c'.buf.length = 8 ∧ S.R c'.itr (k + (p + n)) := by
  induction n with
  | zero => intro c p h1 h2 h3 _ _; exact ⟨h1, h3⟩
  | succ n ih =>
    intro c p h1 h2 h3 hl hle
    unfold CB.skipN
    rcases S.incr_ok _ _ h3 with ⟨it', hi1, hR⟩ | ⟨e, it', hi1, he, he', hav⟩
    · have h4 : (CB.incr : M (CB ι) Unit) c = (.ok (), { c with itr := it' }) := by
        simp [CB.incr, hi1]
      rw [M.bind_ok h4]
      have := ih (c := { c with itr := it', bufpos := c.bufpos + 1 }) (p := p + 1) h1
        (by simp [h2]) hR (by omega) (by omega)
      rw [show p + (n + 1) = p + 1 + n by omega]
      exact this
    · have h4 : (CB.incr : M (CB ι) Unit) c = (.stop e, { c with itr := it' }) := by
        simp [CB.incr, hi1]
      rw [M.bind_stop h4]
      exact ⟨he, p, hl, by omega, .inr hav, fun h => absurd h he'⟩

theorem skipUpTo (h : CRel S c k p) {n : Nat} (hpn : p ≤ n) (hl : lo ≤ p) (hh : n ≤ hi) :
    Tri S k lo hi (CB.skipUpTo n c) fun _ c' => c'.buf.length = 8 ∧ S.R c'.itr (k + n) := by
  unfold CB.skipUpTo
  have h2 : (CB.bufposM : M (CB ι) Nat) c = (.ok p, c) := by simp [CB.bufposM, h.pos]
  rw [M.bind_ok h2]
  have := skipN (S := S) (k := k) (lo := lo) (hi := hi) (n - p) h.len h.pos h.itr hl (by omega)
  rw [show p + (n - p) = n by omega] at this
  exact this

end CRel

end TW
