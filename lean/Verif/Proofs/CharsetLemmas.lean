import Verif.Proofs.Calls
import Verif.Proofs.Encode
import Verif.Proofs.Buffers
import Verif.Spec.Utf8

/-!
# Lemmas on scanning printed characters
-/

namespace TW

open Spec

theorem At_append {f : Nat → Byte} {k : Nat} {a b : List Byte} :
    At f k (a ++ b) ↔ At f k a ∧ At f (k + a.length) b := by
  induction a generalizing k with
  | nil => simp [At]
  | cons x a ih =>
    simp only [List.cons_append, At, ih, List.length_cons, and_assoc]
    rw [show k + 1 + a.length = k + (a.length + 1) by omega]

theorem At_of {f : Nat → Byte} {k : Nat} {bs : List Byte}
    (h : ∀ i (hi : i < bs.length), f (k + i) = bs[i]) : At f k bs := by
  induction bs generalizing k with
  | nil => trivial
  | cons b bs ih =>
    refine ⟨h 0 (by simp), ih ?_⟩
    intro i hi
    have := h (i + 1) (by simpa using hi)
    simpa [Nat.add_assoc, Nat.add_comm 1 i] using this

theorem At_cyc {pre bs post : List Byte} (h : (pre ++ bs ++ post).length < 2 ^ 32) :
    At (cyc (pre ++ bs ++ post)) pre.length bs := by
  apply At_of
  intro i hi
  simp only [List.length_append] at h
  unfold cyc
  rw [Nat.mod_eq_of_lt (by omega : pre.length + i < 2 ^ 32),
    Nat.mod_eq_of_lt (by simp; omega : (pre ++ bs ++ post).length < 2 ^ 32),
    if_pos (by simp; omega), List.getD_eq_getElem?_getD, List.append_assoc,
    List.getElem?_append_right (by omega), List.getElem?_append_left (by omega),
    show pre.length + i - pre.length = i by omega, List.getElem?_eq_getElem hi]
  rfl

theorem cyc_end {src : List Byte} {k : Nat} (h1 : src.length ≤ k) (h2 : k < 2 ^ 32) :
    cyc src k = 0 := by
  unfold cyc
  rw [Nat.mod_eq_of_lt h2, if_neg]
  have := Nat.mod_le src.length (2 ^ 32)
  omega

/-- A directly encoded character is decoded from its bytes. -/
theorem direct_dec (e : Enc) (he : ∀ p, e = .isolatin p → 1 ≤ p ∧ p ≤ 9) (c : Nat)
    (h32 : c < 2 ^ 32) (hc : Direct e c) (f : Nat → Byte) (k : Nat) (h : At f k (e.print c)) :
    ulen e f k = (e.print c).length ∧ uval e f k = c := by
  cases e with
  | utf8 =>
    simp only [Direct] at hc
    simp only [Enc.print, utf8Print_eq c hc] at h ⊢
    exact rfc2279_dec c hc f k h
  | utf16 be => exact utf16_dec be c hc f k h
  | ucs2 be => exact ucs2_dec be c hc f k h
  | ucs4 be => exact ucs4_dec be c hc f k h
  | isolatin p =>
    have hp := he p rfl
    simp only [Direct, Enc.isolatinPrint] at hc
    simp only [Enc.print, Enc.isolatinPrint, ulen, uval] at h ⊢
    by_cases hi : invcode p c = 0
    · rw [if_pos hi, encodeStr_eq c h32] at hc
      simp [entityText] at hc
    · rw [if_neg hi] at h ⊢
      have hlt : c < 256 := by
        by_cases h : c < 256
        · exact h
        · exact absurd (invcode_big p c (by omega)) hi
      have := (isolatin_tables p c hp hlt hi).1
      simp only [At, and_true] at h
      rw [h]
      simp only [ucharcode] at this
      rw [List.getD_eq_getElem?_getD]
      exact ⟨rfl, this⟩

theorem print_lt (e : Enc) (he : ∀ p, e = .isolatin p → 1 ≤ p ∧ p ≤ 9) (c : Nat)
    (h32 : c < 2 ^ 32) (hc : Direct e c) : ∀ b ∈ e.print c, b < 256 := by
  cases e with
  | utf8 =>
    simp only [Direct] at hc
    simp only [Enc.print, utf8Print_eq c hc]
    unfold rfc2279
    intro b hb
    split_ifs at hb <;> simp at hb <;> omega
  | utf16 be =>
    simp only [Enc.print, utf16Print_eq be c hc]
    obtain ⟨h1, h2⟩ := hc
    intro b hb
    cases be <;> split_ifs at hb <;> simp [bytes16] at hb <;> omega
  | ucs2 be =>
    simp only [Direct] at hc
    simp only [Enc.print, ucs2Print_eq be c hc]
    intro b hb
    cases be <;> simp [bytes16] at hb <;> omega
  | ucs4 be =>
    intro b hb
    cases be <;> simp [Enc.print, Enc.ucs4Print] at hb <;> omega
  | isolatin p =>
    have hp := he p rfl
    simp only [Direct, Enc.isolatinPrint] at hc
    simp only [Enc.print, Enc.isolatinPrint]
    by_cases hi : invcode p c = 0
    · rw [if_pos hi, encodeStr_eq c h32] at hc
      simp [entityText] at hc
    · rw [if_neg hi]
      have hlt : c < 256 := by
        by_cases h : c < 256
        · exact h
        · exact absurd (invcode_big p c (by omega)) hi
      have := (isolatin_tables p c hp hlt hi).2
      simpa using this

/-- Scan one character of a C string. -/
theorem scan_first (e : Enc) (src : List Byte) (hb : ∀ b ∈ src, b < 256) (c n : Nat)
    (hl : ulen e (cyc src) 0 = n) (hv : uval e (cyc src) 0 = c) :
    ∃ t, TextScanner.calls [.chr, .skip, .pos] (TextScanner.mk' e (CStr.mk' src))
      = (.ok [.num c, .none, .num n], t) := by
  have h8 := ulen_le e (cyc src) 0
  have h8' := ulen_le e (cyc src) (0 + ulen e (cyc src) 0)
  obtain ⟨t, ht⟩ := calls_init (S := cstrSource src hb) (fun _ => ⟨trivial, trivial⟩) e (CStr.mk' src)
    trivial 0 (cstrSource_start src hb) [.chr, .skip, .pos]
    (by refine ⟨?_, trivial⟩; simp only [cstrSource]; omega) (by simp [Examined])
  refine ⟨t, ?_⟩
  rw [ht]
  simp only [callsOut, callOut, hl, hv, Nat.zero_add]

theorem wide_entity (be : Bool) (c : Nat) :
    (entityText c).flatMap (Enc.unit2 be) = wide be (entityText c) := by
  have h : ∀ b ∈ entityText c, b < 256 := by
    intro b hb
    simp only [entityText, hexDigitsRev, List.mem_append, List.mem_cons, List.mem_reverse,
      List.not_mem_nil, or_false] at hb
    rcases hb with (h | h) | h
    · omega
    · have := hexRev_range 32 c b h; omega
    · omega
  unfold wide
  generalize entityText c = l at h
  induction l with
  | nil => rfl
  | cons b l ih =>
    simp only [List.flatMap_cons]
    rw [ih (fun x hx => h x (by simp [hx])), unit2_eq be b (by have := h b (by simp); omega)]

theorem At_get {f : Nat → Byte} {bs : List Byte} {k : Nat} (h : At f k bs) {i : Nat}
    (hi : i < bs.length) : bs[i]? = some (f (k + i)) := by
  induction bs generalizing k i with
  | nil => simp at hi
  | cons x bs ih =>
    cases i with
    | zero => simp [h.1]
    | succ i =>
      have := ih (k := k + 1) h.2 (i := i) (by simpa using hi)
      simp only [List.getElem?_cons_succ, this]
      rw [show k + 1 + i = k + (i + 1) by omega]

theorem At_slice {f : Nat → Byte} {bs : List Byte} {k : Nat} (h : At f k bs) :
    slice f k bs.length = bs := by
  apply List.ext_getElem?
  intro i
  rw [slice, List.getElem?_map]
  by_cases hi : i < bs.length
  · rw [List.getElem?_range hi, At_get h hi]; rfl
  · rw [List.getElem?_eq_none (by simp; omega), List.getElem?_eq_none (by omega)]; rfl

theorem contVal_bad (bs : List Byte) (v : Nat) (h : ∃ x ∈ bs, ¬ IsCont x) : contVal bs v = none := by
  induction bs generalizing v with
  | nil => simp at h
  | cons x bs ih =>
    rw [contVal]
    by_cases hx : 0x80 ≤ x ∧ x < 0xC0
    · rw [if_pos hx]
      apply ih
      obtain ⟨y, hy, hny⟩ := h
      rcases List.mem_cons.1 hy with rfl | hy
      · exact absurd hx hny
      · exact ⟨y, hy, hny⟩
    · rw [if_neg hx]

/-- A history without position query. -/
theorem posOk_of_not_mem {ι : Type} [Iter ι] {f : Nat → Byte} (S : Source ι f) (e : Enc)
    (cs : List TCall) (h : TCall.pos ∉ cs) (k : Nat) : PosOk S e k cs := by
  induction cs generalizing k with
  | nil => trivial
  | cons c cs ih =>
    have h1 : TCall.pos ∉ cs := fun h' => h (List.mem_cons_of_mem _ h')
    cases c with
    | pos => exact absurd (List.mem_cons_self) h
    | _ => exact ih h1 _

/-- The calls that read a text of `n` characters and look at what follows. -/
def readCalls (n : Nat) : List TCall :=
  (List.replicate n [TCall.chr, .skip]).flatten ++ [.chr, .control]

theorem readCalls_examined (n : Nat) (b : Bool) : Examined b (readCalls n) := by
  induction n generalizing b with
  | zero => cases b <;> simp [readCalls, Examined]
  | succ n ih => simpa [readCalls, List.replicate_succ, Examined] using ih false

theorem readCalls_posOk {ι : Type} [Iter ι] {f : Nat → Byte} (S : Source ι f) (e : Enc) (n k : Nat) :
    PosOk S e k (readCalls n) := by
  induction n generalizing k with
  | zero => simp [readCalls, PosOk]
  | succ n ih => simpa [readCalls, List.replicate_succ, PosOk] using ih _

theorem uval_zero (e : Enc) (f : Nat → Byte) (k : Nat) (h : ∀ j, k ≤ j → j < k + 4 → f j = 0) :
    uval e f k = 0 ∧ uasc e f k = 0 := by
  have h0 := h k (by omega) (by omega)
  have h1 := h (k + 1) (by omega) (by omega)
  have h2 := h (k + 2) (by omega) (by omega)
  have h3 := h (k + 3) (by omega) (by omega)
  cases e with
  | utf8 => simp [uval, uasc, utf8Val, h0]
  | utf16 be => cases be <;> simp [uval, uasc, unit16, h0, h1]
  | ucs2 be => cases be <;> simp [uval, uasc, unit16, h0, h1]
  | ucs4 be => cases be <;> simp [uval, uasc, h0, h1, h2, h3]
  | isolatin p => simp [uval, uasc, h0]

theorem readCalls_out (e : Enc) (he : ∀ p, e = .isolatin p → 1 ≤ p ∧ p ≤ 9) (f : Nat → Byte)
    (cs : List Nat) : ∀ (k : Nat), (∀ c ∈ cs, c < 2 ^ 32 ∧ Direct e c) →
    At f k (cs.flatMap e.print) →
    (∀ j, k + (cs.flatMap e.print).length ≤ j → j < k + (cs.flatMap e.print).length + 4 → f j = 0) →
    callsOut e f k (readCalls cs.length)
      = cs.flatMap (fun c => [TOut.num c, .none]) ++ [.num 0, .cls .EndOfText] := by
  induction cs with
  | nil =>
    intro k _ _ h0
    obtain ⟨h1, h2⟩ := uval_zero e f k (by simpa using h0)
    simp [readCalls, callsOut, callOut, h1, h2, classOf]
  | cons c cs ih =>
    intro k hd ha h0
    rw [List.flatMap_cons] at ha h0
    rw [At_append] at ha
    obtain ⟨hl, hv⟩ := direct_dec e he c (hd c (by simp)).1 (hd c (by simp)).2 f k ha.1
    have := ih (k + (e.print c).length) (fun x hx => hd x (by simp [hx])) ha.2 (by
      intro j h1 h2
      rw [List.length_append] at h0
      exact h0 j (by omega) (by omega))
    rw [List.length_cons, List.flatMap_cons, List.append_assoc, ← this]
    simp only [readCalls, List.replicate_succ, List.flatten_cons, List.cons_append,
      List.nil_append, callsOut, callOut, hl, hv]

end TW
