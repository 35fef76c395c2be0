import Verif.Model.Examples
import Verif.Spec.Examples
import Verif.Props.Charsets
import Verif.Proofs.Exit
import Verif.Props.Pointer

/-!
# Property C98: the example program with the text scanner
-/

namespace TW

open Spec

theorem showHex_isHex (n : Nat) (h : 0 < n) : IsHex (showHex n) n := by
  induction n using Nat.strongRecOn with
  | ind n ih =>
    have hd : ∀ d, (if d < 10 then 48 + d else 87 + d) = Spec.hexDigit d := by
      intro d
      unfold Spec.hexDigit
      split
      · rfl
      · omega
    unfold showHex
    by_cases h16 : n < 16
    · simp only [if_pos h16, hd]
      exact .digit n h h16
    · simp only [if_neg h16, hd]
      have := IsHex.snoc _ _ _ (ih (n / 16) (by omega) (by omega)) (Nat.mod_lt n (by omega : 0 < 16))
      rwa [show n / 16 * 16 + n % 16 = n by omega] at this

/-- The calls of the program for `n` characters and the end of them. -/
def showCalls (n : Nat) : List TCall := (List.replicate n [TCall.chr, .chr, .skip]).flatten ++ [.chr]

theorem showCalls_succ (n : Nat) : showCalls (n + 1) = .chr :: .chr :: .skip :: showCalls n := rfl

theorem showCalls_posOk {ι : Type} [Iter ι] {f : Nat → Byte} (S : Source ι f) (e : Enc) (n k : Nat) : PosOk S e k (showCalls n) := by
  induction n generalizing k with
  | zero => simp [showCalls, PosOk]
  | succ n ih => simpa [showCalls_succ, PosOk] using ih _

theorem showCalls_examined (n : Nat) (b : Bool) : Examined b (showCalls n) := by
  induction n generalizing b with
  | zero => cases b <;> simp [showCalls, Examined]
  | succ n ih => simpa [showCalls_succ, Examined] using ih false

/-- The characters met by skipping `n` times. -/
def charsAt (e : Enc) (f : Nat → Byte) (n : Nat) : List UChar := (List.range n).map fun i => uval e f (offs e f 0 i)

theorem showChars_calls {ι : Type} [Iter ι] {e : Enc} {f : Nat → Byte} : ∀ (n k j : Nat) {t t' : TextScanner ι},
    TextScanner.calls (showCalls n) t = (.ok (callsOut e f j (showCalls n)), t') → (∀ i, i < n → uval e f (offs e f j i) ≠ 0) →
    uval e f (offs e f j n) = 0 → n < k →
    ∃ out, showChars k t = ((out, .returned true), t') ∧ HexLines ((List.range n).map fun i => uval e f (offs e f j i)) out := by
  intro n
  induction n with
  | zero =>
    intro k j t t' h _ h0 hk
    cases k with
    | zero => omega
    | succ k =>
      rw [showCalls, List.replicate_zero, List.flatten_nil, List.nil_append, TextScanner.calls] at h
      obtain ⟨o, t1, h1, h⟩ := M.bind_eq h
      obtain ⟨os, t2, h2, h⟩ := M.bind_eq h
      obtain ⟨h3, rfl⟩ := M.pure_eq h
      obtain ⟨-, rfl⟩ := M.pure_eq h2
      obtain ⟨v, t3, g1, g2⟩ := M.bind_eq h1
      obtain ⟨rfl, rfl⟩ := M.pure_eq g2
      simp only [callsOut, callOut] at h3
      obtain ⟨h3, -⟩ := List.cons.inj h3
      injection h3 with h3
      simp only [offs] at h0
      rw [h0] at h3
      subst h3
      refine ⟨[], ?_, .nil⟩
      unfold showChars
      rw [g1]
      rfl
  | succ n ih =>
    intro k j t t' h hne h0 hk
    cases k with
    | zero => omega
    | succ k =>
      rw [showCalls_succ] at h
      simp only [callsOut, callOut, TextScanner.calls] at h
      obtain ⟨o, t1, h1, h⟩ := M.bind_eq h
      obtain ⟨os, t2, h2, h⟩ := M.bind_eq h
      obtain ⟨h3, rfl⟩ := M.pure_eq h
      obtain ⟨rfl, rfl⟩ := List.cons.inj h3
      obtain ⟨v, t3, g1, g2⟩ := M.bind_eq h1
      obtain ⟨e1, rfl⟩ := M.pure_eq g2
      injection e1 with e1
      subst e1
      obtain ⟨o, t4, h1, h⟩ := M.bind_eq h2
      obtain ⟨os, t5, h2, h⟩ := M.bind_eq h
      obtain ⟨h3, rfl⟩ := M.pure_eq h
      obtain ⟨rfl, rfl⟩ := List.cons.inj h3
      obtain ⟨v, t6, g3, g2⟩ := M.bind_eq h1
      obtain ⟨e1, rfl⟩ := M.pure_eq g2
      injection e1 with e1
      subst e1
      obtain ⟨o, t7, h1, h⟩ := M.bind_eq h2
      obtain ⟨os, t8, h2, h⟩ := M.bind_eq h
      obtain ⟨h3, rfl⟩ := M.pure_eq h
      obtain ⟨rfl, rfl⟩ := List.cons.inj h3
      obtain ⟨_, t9, g4, g2⟩ := M.bind_eq h1
      obtain ⟨-, rfl⟩ := M.pure_eq g2
      obtain ⟨out, i1, i2⟩ := ih k (j + ulen e f j) h2 (fun i hi => by rw [← offs_succ]; exact hne (i + 1) (by omega)) (by rw [← offs_succ]; exact h0) (by omega)
      have hc : uval e f j ≠ 0 := hne 0 (by omega)
      refine ⟨showHex (uval e f j) ++ [10] ++ out, ?_, ?_⟩
      · unfold showChars
        rw [g1]
        simp only [if_neg hc, g3, g4, i1]
      · rw [List.range_succ_eq_map, List.map_cons, List.map_map]
        refine .cons (showHex_isHex _ (by omega)) ?_
        simpa only [Function.comp_def, Nat.succ_eq_add_one, offs_succ] using i2

theorem first_zero {p : Nat → Prop} (hp : ∀ n, Decidable (p n)) {n : Nat} (h : p n) : ∃ m, m ≤ n ∧ p m ∧ ∀ i, i < m → ¬p i := by
  induction n using Nat.strongRecOn with
  | ind n ih =>
    by_cases hx : ∃ i, i < n ∧ p i
    · obtain ⟨i, h1, h2⟩ := hx
      obtain ⟨m, h3, h4⟩ := ih i h1 h2
      exact ⟨m, by omega, h4⟩
    · exact ⟨n, Nat.le_refl _, h, fun i hi hpi => hx ⟨i, hi, hpi⟩⟩

theorem isHex_eq {a : List Byte} {c : Nat} (h : IsHex a c) : a = showHex c := by
  have hd : ∀ d, (if d < 10 then 48 + d else 87 + d) = Spec.hexDigit d := by
    intro d
    unfold Spec.hexDigit
    split
    · rfl
    · omega
  have hp : ∀ {a : List Byte} {c : Nat}, IsHex a c → 0 < c := by
    intro a c h
    induction h with
    | digit _ h _ => exact h
    | snoc => omega
  induction h with
  | digit d h1 h2 =>
    unfold showHex
    simp only [if_pos h2, hd]
  | snoc bs n d h1 h2 ih =>
    have := hp h1
    rw [showHex]
    simp only [if_neg (show ¬n * 16 + d < 16 by omega), hd, show (n * 16 + d) / 16 = n by omega, show (n * 16 + d) % 16 = d by omega, ih]

theorem hexLines_one {cs : List UChar} {a b : List Byte} (h : HexLines cs a) : HexLines cs b → a = b := by
  induction h generalizing b with
  | nil => intro h; cases h; rfl
  | cons h1 _ ih =>
    intro h
    cases h with
    | cons h2 h3 => rw [isHex_eq h1, isHex_eq h2, ih h3]

theorem offs_ge (e : Enc) (f : Nat → Byte) (n : Nat) : n ≤ offs e f 0 n := by
  induction n with
  | zero => exact Nat.zero_le _
  | succ n ih =>
    have := ulen_pos e f (offs e f 0 n)
    rw [offs]
    omega

/-- C98: for all texts the program ends by itself and writes one line with the hexadecimal code for each of the characters before the first null
character or the end. -/
theorem C98_ends (e : Enc) (src : List Byte) (hb : ∀ b ∈ src, b < 256) (hl : src.length + 12 < 2 ^ 32) :
    ∃ m, m ≤ src.length ∧ (∀ i, i < m → uval e (cyc src) (offs e (cyc src) 0 i) ≠ 0) ∧ uval e (cyc src) (offs e (cyc src) 0 m) = 0 ∧
      ∃ out t, HexLines (charsAt e (cyc src) m) out ∧ ∀ k, m < k → showChars k (scanOf e src) = ((out, .returned true), t) := by
  obtain ⟨n, h1, h2, h3⟩ := first_zero (p := fun n => src.length ≤ offs e (cyc src) 0 n) (fun _ => inferInstance) (n := src.length) (offs_ge _ _ _)
  have h4 : offs e (cyc src) 0 n < src.length + 8 := by
    cases n with
    | zero => simp only [offs]; omega
    | succ n =>
      have := h3 n (by omega)
      have h5 := ulen_le e (cyc src) (offs e (cyc src) 0 n)
      rw [offs]
      omega
  have h5 : uval e (cyc src) (offs e (cyc src) 0 n) = 0 := (uval_zero e _ _ fun j h6 h7 => cyc_end (by omega) (by omega)).1
  obtain ⟨m, g1, g2, g3⟩ := first_zero (p := fun n => uval e (cyc src) (offs e (cyc src) 0 n) = 0) (fun _ => inferInstance) h5
  refine ⟨m, by omega, g3, g2, ?_⟩
  obtain ⟨t, ht⟩ := calls_init (S := cstrSource _ hb) (fun _ => ⟨trivial, trivial⟩) e (CStr.mk' src) trivial 0 (cstrSource_start _ hb) (showCalls m)
    (showCalls_posOk _ _ _ _) (fun _ => showCalls_examined _ _)
  obtain ⟨out, i1, i2⟩ := showChars_calls m (m + 1) 0 ht g3 g2 (by omega)
  refine ⟨out, t, i2, fun k hk => ?_⟩
  obtain ⟨out', j1, j2⟩ := showChars_calls m k 0 ht g3 g2 hk
  unfold scanOf
  rw [j1, hexLines_one j2 i2]

theorem offs_text (e : Enc) (he : ∀ p, e = .isolatin p → 1 ≤ p ∧ p ≤ 9) (f : Nat → Byte) : ∀ (cs : List UChar) (k : Nat),
    (∀ c ∈ cs, c < 2 ^ 32 ∧ Direct e c) → At f k (cs.flatMap e.print) →
    (List.range cs.length).map (fun i => uval e f (offs e f k i)) = cs ∧ offs e f k cs.length = k + (cs.flatMap e.print).length := by
  intro cs
  induction cs with
  | nil => intro k _ _; exact ⟨rfl, rfl⟩
  | cons c cs ih =>
    intro k hc ha
    rw [List.flatMap_cons, At_append] at ha
    obtain ⟨h1, h2⟩ := direct_dec e he c (hc c List.mem_cons_self).1 (hc c List.mem_cons_self).2 f k ha.1
    obtain ⟨h3, h4⟩ := ih (k + (e.print c).length) (fun x hx => hc x (List.mem_cons_of_mem _ hx)) ha.2
    rw [List.length_cons, List.range_succ_eq_map, List.map_cons, List.map_map, offs_succ, h1, h4, List.flatMap_cons, List.length_append]
    refine ⟨?_, by omega⟩
    have h5 : ∀ i, offs e f k (i + 1) = offs e f (k + (e.print c).length) i := fun i => by rw [offs_succ, h1]
    rw [show offs e f k 0 = k from rfl, h2]
    simp only [Function.comp_def, Nat.succ_eq_add_one, h5, h3]

/-- C98, for the characters of a text: they are all written, also if a null character and other bytes follow. -/
theorem C98_text (e : Enc) (he : ∀ p, e = .isolatin p → 1 ≤ p ∧ p ≤ 9) (cs : List UChar) (hcs : ∀ c ∈ cs, 0 < c ∧ c < 2 ^ 32 ∧ Direct e c)
    (tail : List Byte) (htail : tail = [] ∨ ∃ r, tail = List.replicate (unitSize e) 0 ++ r ∧ ∀ b ∈ r, b < 256)
    (hl : (cs.flatMap e.print ++ tail).length + 12 < 2 ^ 32) :
    ∃ out t, HexLines cs out ∧ ∀ k, cs.length < k → showChars k (scanOf e (cs.flatMap e.print ++ tail)) = ((out, .returned true), t) := by
  have hb : ∀ b ∈ cs.flatMap e.print ++ tail, b < 256 := by
    intro b hb
    rcases List.mem_append.1 hb with hb | hb
    · obtain ⟨c, hc, hbc⟩ := List.mem_flatMap.1 hb
      exact print_lt e he c (hcs c hc).2.1 (hcs c hc).2.2 b hbc
    · rcases htail with rfl | ⟨r, rfl, hr⟩
      · cases hb
      · rcases List.mem_append.1 hb with hb | hb
        · rw [List.eq_of_mem_replicate hb]; decide
        · exact hr b hb
  have hat : At (cyc (cs.flatMap e.print ++ tail)) 0 (cs.flatMap e.print) := by
    have := At_cyc (pre := []) (bs := cs.flatMap e.print) (post := tail) (by rw [List.nil_append]; omega)
    simpa using this
  obtain ⟨h1, h2⟩ := offs_text e he _ cs 0 (fun c hc => (hcs c hc).2) hat
  have h3 : ∀ i, i < cs.length → uval e (cyc (cs.flatMap e.print ++ tail)) (offs e (cyc (cs.flatMap e.print ++ tail)) 0 i) ≠ 0 := by
    intro i hi
    have := List.mem_map_of_mem (f := fun i => uval e (cyc (cs.flatMap e.print ++ tail)) (offs e (cyc (cs.flatMap e.print ++ tail)) 0 i)) (List.mem_range.2 hi)
    rw [h1] at this
    have := (hcs _ this).1
    omega
  have h4 : uval e (cyc (cs.flatMap e.print ++ tail)) (offs e (cyc (cs.flatMap e.print ++ tail)) 0 cs.length) = 0 := by
    rw [h2, Nat.zero_add]
    rcases htail with rfl | ⟨r, rfl, hr⟩
    · exact (uval_zero e _ _ fun j h6 h7 => cyc_end (by simpa only [List.append_nil] using h6) (by rw [List.append_nil] at hl; omega)).1
    · have hz : At (cyc (cs.flatMap e.print ++ (List.replicate (unitSize e) 0 ++ r))) (cs.flatMap e.print).length (List.replicate (unitSize e) 0) := by
        rw [← List.append_assoc]
        exact At_cyc (by rw [List.append_assoc]; omega)
      revert hz
      generalize cyc _ = f
      generalize (cs.flatMap e.print).length = k
      intro hz
      cases e with
      | utf8 => simp [unitSize, At] at hz; simp [uval, utf8Val, hz]
      | utf16 be => simp [unitSize, At, List.replicate] at hz; cases be <;> simp [uval, unit16, hz]
      | ucs2 be => simp [unitSize, At, List.replicate] at hz; cases be <;> simp [uval, unit16, hz]
      | ucs4 be => simp [unitSize, At, List.replicate] at hz; cases be <;> simp [uval, hz]
      | isolatin p => simp [unitSize, At] at hz; simp [uval, hz]
  obtain ⟨t, ht⟩ := calls_init (S := cstrSource _ hb) (fun _ => ⟨trivial, trivial⟩) e (CStr.mk' _) trivial 0 (cstrSource_start _ hb) (showCalls cs.length)
    (showCalls_posOk _ _ _ _) (fun _ => showCalls_examined _ _)
  obtain ⟨out, i1, i2⟩ := showChars_calls cs.length (cs.length + 1) 0 ht h3 h4 (by omega)
  rw [h1] at i2
  refine ⟨out, t, i2, fun k hk => ?_⟩
  obtain ⟨out', j1, j2⟩ := showChars_calls cs.length k 0 ht h3 h4 hk
  rw [h1] at j2
  unfold scanOf
  rw [j1, hexLines_one j2 i2]

/-! ## Examples -/

/-- A character outside of ASCII and a stray byte. -/
example : (showChars 10 (scanOf .utf8 [0x41, 0xE2, 0x82, 0xAC, 0x80, 0x0A])).1 = (codes "41\n20ac\n7fffffff\na\n", .returned true) := by
  decide +kernel

/-- Only the characters before the null. -/
example : (showChars 10 (scanOf .utf8 [0x41, 0, 0x42])).1 = (codes "41\n", .returned true) := by
  decide +kernel

example : ∃ out t, HexLines [0x41, 0x20AC] out ∧ ∀ k, 2 < k →
    showChars k (scanOf (.utf16 true) ([0x41, 0x20AC].flatMap (Enc.print (.utf16 true)) ++ [0, 0, 1, 2])) = ((out, .returned true), t) :=
  C98_text (.utf16 true) (fun _ h => nomatch h) _ (by simp [Direct]) _ (.inr ⟨[1, 2], rfl, by simp⟩) (by decide)

end TW
