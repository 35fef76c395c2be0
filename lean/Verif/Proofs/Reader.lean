import Verif.Proofs.Decode
import Verif.Model.XMLScanner

/-!
# The text scanner simulates an abstract reader

The abstract reader `AR e f` knows only the offset of the current character of
the stream `f` and whether its bytes have been fetched. `SimAt` is the statement
that an operation of `TextScanner` does what the abstract reader does, or stops
for lack of input without losing its place.
-/

namespace TW

open Spec

variable {ι : Type} [Iter ι] {f : Nat → Byte} {S : Source ι f} {k lo hi : Nat}

namespace CRel

variable {c : CB ι} {p : Nat}

open CB

theorem fetchUpTo' (h : CRel S c k p) {n : Nat} (hn : max p n ≤ 8) (hl : lo ≤ p)
    (hh : max p n ≤ hi) :
    Tri S k lo hi (CB.fetchUpTo n c) fun _ c' => CRel S c' k (max p n) := by
  by_cases hpn : p ≤ n
  · rw [show max p n = n by omega] at *
    exact h.fetchUpTo hpn hn hl hh
  · rw [show max p n = p by omega] at *
    unfold CB.fetchUpTo
    have h2 : (CB.bufposM : M (CB ι) Nat) c = (.ok p, c) := by simp [CB.bufposM, h.pos]
    rw [M.bind_ok h2, show n - p = 0 by omega]
    exact h

theorem skipUpTo' (h : CRel S c k p) {n : Nat} (hl : lo ≤ p) (hh : max p n ≤ hi) :
    Tri S k lo hi (CB.skipUpTo n c) fun _ c' =>
      c'.buf.length = 8 ∧ S.R c'.itr (k + max p n) := by
  by_cases hpn : p ≤ n
  · rw [show max p n = n by omega] at *
    exact h.skipUpTo hpn hl hh
  · rw [show max p n = p by omega] at *
    unfold CB.skipUpTo
    have h2 : (CB.bufposM : M (CB ι) Nat) c = (.ok p, c) := by simp [CB.bufposM, h.pos]
    rw [M.bind_ok h2, show n - p = 0 by omega]
    exact ⟨h.len, h.itr⟩

theorem bind_load {α : Type} {g : Byte → M (CB ι) α} {Q : α → CB ι → Prop} (h : CRel S c k p)
    {i : Nat} (hip : i < p) (hg : Tri S k lo hi (g (f (k + i)) c) Q) :
    Tri S k lo hi ((CB.load i >>= g) c) Q := by
  rw [M.bind_ok (h.load hip)]
  exact hg

theorem utf8Size (h : CRel S c k p) (hl : lo ≤ p) (hh : 1 ≤ hi) :
    Tri S k lo hi (Enc.utf8Size c) fun n c' =>
      n = charLengthTab (f k) ∧ CRel S c' k (max 1 p) := by
  unfold Enc.utf8Size
  refine Tri.bind (h.fetchFirst hl hh) fun _ c' h' => ?_
  exact h'.bind_load (by omega) ⟨rfl, h'⟩

theorem utf8Fetchbytes (h : CRel S c k p) (hl : lo ≤ p) (hp : p ≤ utf8Len (f k)) :
    Tri S k lo (utf8Len (f k)) (Enc.utf8Fetchbytes c) fun _ c' =>
      CRel S c' k (utf8Len (f k)) := by
  have h1 := utf8Len_pos (f k)
  have h8 := utf8Len_le (f k)
  have hm := max_charLength (f k) (S.bytes k)
  unfold Enc.utf8Fetchbytes
  refine Tri.bind (h.fetchFirst hl h1) fun _ c1 c1r => ?_
  refine Tri.bind (c1r.utf8Size (by omega) h1) fun n c2 c2r => ?_
  obtain ⟨rfl, c2r⟩ := c2r
  have := c2r.fetchUpTo' (lo := lo) (hi := utf8Len (f k)) (n := charLengthTab (f k))
    (by omega) (by omega) (by omega)
  rw [show max (max 1 (max 1 p)) (charLengthTab (f k)) = utf8Len (f k) by omega] at this
  exact this

theorem utf16Size (h : CRel S c k p) (be : Bool) (hl : lo ≤ p) (hh : 2 ≤ hi) :
    Tri S k lo hi (Enc.utf16Size be c) fun n c' =>
      n = ulen (.utf16 be) f k ∧ CRel S c' k (max 2 p) := by
  unfold Enc.utf16Size
  refine Tri.bind (h.fetch2 hl hh) fun _ c' h' => ?_
  refine h'.bind_load (i := msb be) (by cases be <;> simp [msb] <;> omega) ?_
  have hs := utf16_size be f S.bytes k
  generalize (f (k + msb be) + 2 ^ 32 - 0xD8) % 2 ^ 32 = x at hs ⊢
  by_cases hx : 0x03 < x
  · rw [if_pos hx] at hs ⊢
    exact ⟨hs, h'⟩
  · rw [if_neg hx] at hs ⊢
    exact ⟨hs, h'⟩

theorem utf16Value (h : CRel S c k p) (be : Bool) (hl : lo ≤ p)
    (hp : p ≤ ulen (.utf16 be) f k) :
    Tri S k lo (ulen (.utf16 be) f k) (Enc.utf16Value be c) fun v c' =>
      v = uval (.utf16 be) f k ∧ CRel S c' k (ulen (.utf16 be) f k) := by
  have h2 : 2 ≤ ulen (.utf16 be) f k := by simp only [ulen]; split <;> omega
  have hm : msb be < 2 := by cases be <;> simp [msb]
  have hlb : lsb be < 2 := by cases be <;> simp [lsb]
  unfold Enc.utf16Value
  refine Tri.bind (h.utf16Size be hl h2) fun n c' h' => ?_
  obtain ⟨rfl, h'⟩ := h'
  refine h'.bind_load (i := msb be) (by omega) ?_
  refine h'.bind_load (i := lsb be) (by omega) ?_
  rw [unit16_msb be f S.bytes k]
  by_cases hs : 0xD800 ≤ unit16 be f k ∧ unit16 be f k < 0xDC00
  · have hu : ulen (.utf16 be) f k = 4 := by simp only [ulen]; rw [if_pos hs]
    rw [hu] at hp ⊢
    simp only [if_true]
    have hf4 := h'.fetchUpTo' (lo := lo) (hi := 4) (n := 4) (by omega) (by omega) (by omega)
    rw [show max (max 2 p) 4 = 4 by omega] at hf4
    refine Tri.bind hf4 fun _ c2 c2r => ?_
    refine c2r.bind_load (i := 2 + msb be) (by omega) ?_
    refine c2r.bind_load (i := 2 + lsb be) (by omega) ?_
    exact ⟨utf16_pair be f S.bytes k hs, c2r⟩
  · have hu : ulen (.utf16 be) f k = 2 := by simp only [ulen]; rw [if_neg hs]
    rw [hu] at hp ⊢
    rw [show max 2 p = 2 by omega] at h'
    refine ⟨?_, h'⟩
    simp only [uval]
    rw [if_neg hs]

theorem value (h : CRel S c k p) (e : Enc) (hl : lo ≤ p) (hp : p ≤ ulen e f k) :
    Tri S k lo (ulen e f k) (Enc.value e c) fun v c' =>
      v = uval e f k ∧ CRel S c' k (ulen e f k) := by
  cases e with
  | utf8 =>
    refine Tri.bind (h.utf8Fetchbytes hl hp) fun _ c' h' => ?_
    refine ⟨?_, h'⟩
    rw [h'.take]
    exact utf8Decode_eq f S.bytes k
  | utf16 be => exact h.utf16Value be hl hp
  | ucs2 be =>
    have hm : msb be < 2 := by cases be <;> simp [msb]
    have hl : lsb be < 2 := by cases be <;> simp [lsb]
    simp only [ulen] at hp
    refine Tri.bind (h.fetch2 (by omega) (by simp [ulen])) fun _ c' h' => ?_
    rw [show max 2 p = 2 by omega] at h'
    refine h'.bind_load (i := msb be) (by omega) ?_
    refine h'.bind_load (i := lsb be) (by omega) ?_
    exact ⟨unit16_msb be f S.bytes k, h'⟩
  | ucs4 be =>
    simp only [ulen] at hp
    refine Tri.bind (h.fetchUpTo (n := 4) hp (by omega) hl (by simp [ulen])) fun _ c' h' => ?_
    refine h'.bind_load (i := if be then 0 else 3) (by split <;> omega) ?_
    refine h'.bind_load (i := if be then 1 else 2) (by split <;> omega) ?_
    refine h'.bind_load (i := if be then 2 else 1) (by split <;> omega) ?_
    refine h'.bind_load (i := if be then 3 else 0) (by split <;> omega) ?_
    refine ⟨?_, h'⟩
    have h0 := S.bytes k
    have h1 := S.bytes (k + 1)
    have h2 := S.bytes (k + 2)
    have h3 := S.bytes (k + 3)
    cases be <;> simp only [uval, Bool.false_eq_true, if_false, if_true, Nat.add_zero] <;>
      rw [shl8 _ _ (by omega) (by omega), shl8 _ _ (by omega) (by omega),
        shl8 _ _ (by omega) (by omega)]
  | isolatin page =>
    simp only [ulen] at hp
    refine Tri.bind (h.fetchFirst hl (by simp [ulen])) fun _ c' h' => ?_
    rw [show max 1 p = 1 by omega] at h'
    refine h'.bind_load (i := 0) (by omega) ?_
    refine ⟨?_, h'⟩
    simp only [ucharcode, uval, Nat.add_zero, List.getD_eq_getElem?_getD]

/-- What `asciichar` leaves in the character buffer. -/
def ascFull (e : Enc) (f : Nat → Byte) (k p : Nat) : Prop :=
  match e with
  | .utf8 => 1 ≤ p
  | _ => p = ulen e f k

theorem asciichar (h : CRel S c k p) (e : Enc) (hl : lo ≤ p) (hp : p ≤ ulen e f k) :
    Tri S k lo (ulen e f k) (Enc.asciichar e c) fun v c' =>
      v = uasc e f k ∧ ∃ p', p ≤ p' ∧ p' ≤ ulen e f k ∧ ascFull e f k p' ∧ CRel S c' k p' := by
  have htc : ∀ v, Enc.toCur v = if v < 128 then v else 255 := by
    intro v; unfold Enc.toCur; by_cases hv : v < 128
    · rw [if_pos hv, if_neg (by omega)]
    · rw [if_neg hv, if_pos (by omega)]
  cases e with
  | utf8 =>
    have := utf8Len_pos (f k)
    simp only [ulen] at hp ⊢
    refine Tri.bind (h.fetchFirst hl this) fun _ c' h' => ?_
    refine h'.bind_load (i := 0) (by omega) ?_
    exact ⟨htc _, max 1 p, by omega, by omega, by simp only [ascFull]; omega, h'⟩
  | isolatin page =>
    simp only [ulen] at hp ⊢
    refine Tri.bind (h.fetchFirst hl (by omega)) fun _ c' h' => ?_
    refine h'.bind_load (i := 0) (by omega) ?_
    exact ⟨htc _, max 1 p, by omega, by omega, by simp [ascFull, ulen]; omega, h'⟩
  | utf16 be =>
    refine Tri.bind (h.utf16Value be hl hp) fun v c' h' => ?_
    obtain ⟨rfl, h'⟩ := h'
    exact ⟨htc _, _, hp, Nat.le_refl _, rfl, h'⟩
  | ucs2 be =>
    refine Tri.bind (h.value (.ucs2 be) hl hp) fun v c' h' => ?_
    obtain ⟨rfl, h'⟩ := h'
    exact ⟨htc _, _, hp, Nat.le_refl _, rfl, h'⟩
  | ucs4 be =>
    refine Tri.bind (h.value (.ucs4 be) hl hp) fun v c' h' => ?_
    obtain ⟨rfl, h'⟩ := h'
    exact ⟨htc _, _, hp, Nat.le_refl _, rfl, h'⟩

theorem skip (h : CRel S c k p) (e : Enc) (hl : lo ≤ p) (hp : p ≤ ulen e f k) :
    Tri S k lo (ulen e f k) (Enc.skip e c) fun _ c' =>
      c'.buf.length = 8 ∧ S.R c'.itr (k + ulen e f k) := by
  cases e with
  | utf8 =>
    have h1 := utf8Len_pos (f k)
    have hm := max_charLength (f k) (S.bytes k)
    simp only [ulen] at hp ⊢
    refine Tri.bind (h.utf8Size hl h1) fun n c' h' => ?_
    obtain ⟨rfl, h'⟩ := h'
    have := h'.skipUpTo' (n := charLengthTab (f k)) (lo := lo) (hi := utf8Len (f k))
      (by omega) (by omega)
    rw [show max (max 1 p) (charLengthTab (f k)) = utf8Len (f k) by omega] at this
    exact this
  | utf16 be =>
    have h2 : 2 ≤ ulen (.utf16 be) f k := by simp only [ulen]; split <;> omega
    refine Tri.bind (h.utf16Size be hl h2) fun n c' h' => ?_
    obtain ⟨rfl, h'⟩ := h'
    exact h'.skipUpTo (by omega) (by omega) (Nat.le_refl _)
  | ucs2 be => exact h.skipUpTo hp hl (Nat.le_refl _)
  | ucs4 be => exact h.skipUpTo hp hl (Nat.le_refl _)
  | isolatin page => exact h.skipUpTo hp hl (Nat.le_refl _)

/-- Number of bytes in the character buffer after `fetchbytes`. -/
def fetchLen (e : Enc) (f : Nat → Byte) (k p : Nat) : Nat :=
  match e with
  | .utf16 _ => max 2 p
  | _ => ulen e f k

theorem fetchLen_bounds {e : Enc} (hp : p ≤ ulen e f k) :
    p ≤ fetchLen e f k p ∧ fetchLen e f k p ≤ ulen e f k := by
  cases e <;> simp only [fetchLen]
  case utf16 be =>
    have h2 : 2 ≤ ulen (.utf16 be) f k := by simp only [ulen]; split <;> omega
    omega
  all_goals omega

theorem fetchbytes (h : CRel S c k p) (e : Enc) (hl : lo ≤ p) (hp : p ≤ ulen e f k) :
    Tri S k lo (ulen e f k) (Enc.fetchbytes e c) fun _ c' =>
      CRel S c' k (fetchLen e f k p) := by
  cases e with
  | utf8 => exact h.utf8Fetchbytes hl hp
  | utf16 be =>
    have h2 : 2 ≤ ulen (.utf16 be) f k := by simp only [ulen]; split <;> omega
    exact h.fetch2 hl h2
  | ucs2 be =>
    simp only [ulen, fetchLen] at hp ⊢
    have := h.fetch2 (lo := lo) (hi := 2) hl (by omega)
    rw [show max 2 p = 2 by omega] at this
    exact this
  | ucs4 be => exact h.fetchUpTo hp (by simp) hl (Nat.le_refl _)
  | isolatin page =>
    simp only [ulen, fetchLen] at hp ⊢
    have := h.fetchFirst (lo := lo) (hi := 1) hl (by omega)
    rw [show max 1 p = 1 by omega] at this
    exact this

end CRel

/-! ## The abstract reader -/

/-- How much of the current character has been fetched: nothing known, as much as
`control` and `ascii` need, or all bytes. -/
inductive Ld where
  | no | asc | full
  deriving DecidableEq, Repr

/-- After `control` or `ascii`. -/
def Ld.up : Ld → Ld
  | .no => .asc
  | l => l

/-- Abstract reader on the stream `f` in the character set `e`. -/
structure AR (e : Enc) (f : Nat → Byte) where
  k : Nat
  ld : Ld

namespace AR

variable {e : Enc}

instance : Reader (AR e f) where
  control := fun a => (.ok (controlCharMap (uasc e f a.k)), { a with ld := a.ld.up })
  ascii := fun a =>
    (.ok (if uasc e f a.k < 128 then uasc e f a.k else 0), { a with ld := a.ld.up })
  copychar := fun out a =>
    if e = out then (.ok (slice f a.k (ulen e f a.k)), { a with ld := .full })
    else (.ok (out.print (uval e f a.k)), { a with ld := .full })
  skip := fun a => (.ok (), { k := a.k + ulen e f a.k, ld := .no })
  getPosition := fun a => a.k

end AR

/-- Fetch state and number `p` of bytes fetched. -/
def ldOk (e : Enc) (f : Nat → Byte) (k p : Nat) : Ld → Prop
  | .no => True
  | .asc => CRel.ascFull e f k p
  | .full => p = ulen e f k

/-- The text scanner is at the character at offset `k`. -/
structure TRel (S : Source ι f) (e : Enc) (t : TextScanner ι) (a : AR e f) : Prop where
  cs : t.charset = e
  rs : S.RS t.start
  cb : ∃ p, p ≤ ulen e f a.k ∧ CRel S t.cb a.k p ∧ ldOk e f a.k p a.ld ∧
    (t.val ≠ 0 → p = ulen e f a.k)
  val : t.val = 0 ∨ t.val = uval e f a.k

/-- `x` on the text scanner `t` returns what `y` returns on the abstract reader `a`,
or stops because a byte of the current character is missing; in case of the end of
a chunk the place is kept. -/
def SimAt (S : Source ι f) (e : Enc) {α : Type} (x : M (TextScanner ι) α) (y : M (AR e f) α)
    (t : TextScanner ι) (a : AR e f) : Prop :=
  (∃ v t' a', x t = (.ok v, t') ∧ y a = (.ok v, a') ∧ TRel S e t' a') ∨
  (∃ er t', x t = (.stop er, t') ∧ S.er er ∧
    ∃ p, p < ulen e f a.k ∧ (¬ S.av (a.k + p) ∨ ¬ S.ic (a.k + p)) ∧
      (er = .eom → TRel S e t' a ∧ CRel S t'.cb a.k p ∧ ¬ S.av (a.k + p)))

variable {e : Enc}

/-- From an outcome on the character buffer to an outcome of the text scanner. -/
theorem SimAt.lift {α β : Type} {x : Enc → M (CB ι) α} {g : α → TextScanner ι → TextScanner ι}
    {h : α → β} {y : M (AR e f) β} {Q : Nat → α → CB ι → Prop} {t : TextScanner ι} {a : AR e f}
    (hr : TRel S e t a)
    (hx : ∀ p, p ≤ ulen e f a.k → CRel S t.cb a.k p →
      Tri S a.k p (ulen e f a.k) (x e t.cb) (Q p))
    (hy : ∀ p, p ≤ ulen e f a.k → CRel S t.cb a.k p → ldOk e f a.k p a.ld →
      (t.val ≠ 0 → p = ulen e f a.k) →
      ∀ v c, Q p v c → ∃ a', y a = (.ok (h v), a') ∧ TRel S e (g v { t with cb := c }) a')
    {z : M (TextScanner ι) β}
    (hz : z t = (do let v ← TextScanner.onCB x; M.modify (g v); pure (h v) :
      M (TextScanner ι) β) t) :
    SimAt S e z y t a := by
  unfold SimAt
  rw [hz]
  obtain ⟨p, hp, hc, hl, hv⟩ := hr.cb
  have hxt := hx p hp hc
  have hyt := hy p hp hc hl hv
  generalize hxe : x e t.cb = r at hxt
  rcases r with ⟨r, c⟩
  cases r with
  | ok v =>
    left
    obtain ⟨a', h1, h2⟩ := hyt v c hxt
    refine ⟨h v, g v { t with cb := c }, a', ?_, h1, h2⟩
    simp [M.bind_run, TextScanner.onCB, hr.cs, hxe]
  | stop er =>
    right
    obtain ⟨h1, q, hlo, hq, hav, hcr⟩ := hxt
    refine ⟨er, { t with cb := c }, ?_, h1, q, hq, hav, ?_⟩
    · simp [M.bind_run, TextScanner.onCB, hr.cs, hxe]
    · intro he
      obtain ⟨hcr, hnav⟩ := hcr he
      refine ⟨⟨hr.cs, hr.rs, ⟨q, by omega, hcr, ?_, ?_⟩, hr.val⟩, hcr, hnav⟩
      · cases hld : a.ld with
        | no => trivial
        | asc =>
          rw [hld] at hl
          cases e <;> simp only [ldOk, CRel.ascFull] at hl ⊢ <;> omega
        | full =>
          rw [hld] at hl
          simp only [ldOk] at hl ⊢
          omega
      · intro hv0
        have := hv hv0
        omega

theorem ldOk_up {p : Nat} {l : Ld} (h : ldOk e f k p l) (h' : CRel.ascFull e f k p) :
    ldOk e f k p l.up := by
  cases l <;> simp only [Ld.up, ldOk] at * <;> assumption

theorem ldOk_mono {p q : Nat} {l : Ld} (h : ldOk e f k p l) (hpq : p ≤ q) (hq : q ≤ ulen e f k) :
    ldOk e f k q l := by
  cases l with
  | no => trivial
  | asc => cases e <;> simp only [ldOk, CRel.ascFull] at h ⊢ <;> omega
  | full => simp only [ldOk] at h ⊢; omega

theorem ascFull_ulen : CRel.ascFull e f k (ulen e f k) := by
  have := ulen_pos e f k
  cases e <;> simp only [CRel.ascFull]
  exact this

theorem TRel.control {t : TextScanner ι} {a : AR e f} (hr : TRel S e t a) :
    SimAt S e (TextScanner.control : M (TextScanner ι) Cc) Reader.control t a := by
  refine SimAt.lift (x := Enc.asciichar) (g := fun v t => { t with cur := v })
    (h := controlCharMap) hr (fun p hp hc => hc.asciichar e (Nat.le_refl _) hp) ?_ ?_
  · rintro p hp hc hl hv v c ⟨rfl, q, hpq, hq, hf, hcq⟩
    refine ⟨_, rfl, hr.cs, hr.rs, ⟨q, hq, hcq, ldOk_up (ldOk_mono hl hpq hq) hf, ?_⟩, hr.val⟩
    intro h; have := hv h; simp only at *; omega
  · simp only [TextScanner.control, TextScanner.getcur, M.bind_run]
    generalize TextScanner.onCB Enc.asciichar t = r
    rcases r with ⟨r, t'⟩
    cases r <;> rfl

theorem TRel.ascii {t : TextScanner ι} {a : AR e f} (hr : TRel S e t a) :
    SimAt S e (TextScanner.ascii : M (TextScanner ι) Byte) Reader.ascii t a := by
  refine SimAt.lift (x := Enc.asciichar) (g := fun v t => { t with cur := v })
    (h := fun v => if v < 128 then v else 0) hr (fun p hp hc => hc.asciichar e (Nat.le_refl _) hp)
    ?_ ?_
  · rintro p hp hc hl hv v c ⟨rfl, q, hpq, hq, hf, hcq⟩
    refine ⟨_, rfl, hr.cs, hr.rs, ⟨q, hq, hcq, ldOk_up (ldOk_mono hl hpq hq) hf, ?_⟩, hr.val⟩
    intro h; have := hv h; simp only at *; omega
  · simp only [TextScanner.ascii, TextScanner.getcur, M.bind_run]
    generalize TextScanner.onCB Enc.asciichar t = r
    rcases r with ⟨r, t'⟩
    cases r <;> rfl

theorem TRel.skip {t : TextScanner ι} {a : AR e f} (hr : TRel S e t a) :
    SimAt S e (TextScanner.skip : M (TextScanner ι) Unit) Reader.skip t a := by
  refine SimAt.lift (x := Enc.skip)
    (g := fun _ t => { t with cb := { t.cb with bufpos := 0 }, cur := 0, val := 0 })
    (h := id) hr (fun p hp hc => hc.skip e (Nat.le_refl _) hp) ?_ ?_
  · rintro p hp hc hl hv v c ⟨h8, hR⟩
    refine ⟨_, rfl, hr.cs, hr.rs, ⟨0, Nat.zero_le _, ⟨h8, rfl, hR, ?_, ?_⟩, trivial, ?_⟩, .inl rfl⟩
    · intro i hi; omega
    · intro i hi; omega
    · intro h; exact absurd rfl h
  · simp only [TextScanner.skip, M.bind_run]
    generalize TextScanner.onCB Enc.skip t = r
    rcases r with ⟨r, t'⟩
    cases r <;> rfl

/-- `chr` of the abstract reader. -/
def AR.chr : M (AR e f) UChar := fun a => (.ok (uval e f a.k), { a with ld := .full })

theorem TRel.chr {t : TextScanner ι} {a : AR e f} (hr : TRel S e t a) :
    SimAt S e (TextScanner.chr : M (TextScanner ι) UChar) AR.chr t a := by
  by_cases hv : t.val = 0
  · refine SimAt.lift (x := Enc.value) (g := fun v t => { t with val := v })
      (h := id) hr (fun p hp hc => hc.value e (Nat.le_refl _) hp) ?_ ?_
    · rintro p hp hc hl _ v c ⟨rfl, hcq⟩
      exact ⟨_, rfl, hr.cs, hr.rs, ⟨_, Nat.le_refl _, hcq, rfl, fun _ => rfl⟩, .inr rfl⟩
    · simp only [TextScanner.chr, M.bind_run, M.get_run, hv, if_true]
      generalize TextScanner.onCB Enc.value t = r
      rcases r with ⟨r, t'⟩
      cases r <;> rfl
  · left
    obtain ⟨p, hp, hc, hl, hvp⟩ := hr.cb
    have hv2 : t.val = uval e f a.k := by rcases hr.val with h | h; exact absurd h hv; exact h
    refine ⟨t.val, t, { a with ld := .full }, ?_, ?_, hr.cs, hr.rs, ⟨p, hp, hc, hvp hv, hvp⟩, hr.val⟩
    · simp [TextScanner.chr, M.bind_run, hv]
    · rw [hv2]; rfl

/-- UTF-16 `copychar` to the same character set needs that the character has been
examined before; it copies too little otherwise. -/
theorem TRel.copychar' {t : TextScanner ι} {a : AR e f} (hr : TRel S e t a) (out : Enc)
    (ha : a.ld ≠ .no ∨ e ≠ out ∨ ∀ be, e ≠ .utf16 be) :
    SimAt S e (TextScanner.copychar out : M (TextScanner ι) (List Byte)) (Reader.copychar out)
      t a := by
  by_cases ho : e = out
  · subst ho
    refine SimAt.lift
      (x := fun e => do Enc.fetchbytes e; let c ← M.get; pure (c.buf.take c.bufpos))
      (g := fun _ t => t) (h := id)
      (Q := fun p v c => v = slice f a.k (CRel.fetchLen e f a.k p) ∧
        CRel S c a.k (CRel.fetchLen e f a.k p)) hr ?_ ?_ ?_
    · intro p hp hc
      refine Tri.bind (hc.fetchbytes e (Nat.le_refl _) hp) fun _ c' h' => ?_
      exact ⟨h'.take, h'⟩
    · rintro p hp hc hl hv v c ⟨rfl, hcq⟩
      have hq : CRel.fetchLen e f a.k p = ulen e f a.k := by
        have hb := CRel.fetchLen_bounds (f := f) (k := a.k) (e := e) hp
        cases hld : a.ld with
        | no =>
          cases e with
          | utf16 be => simp [hld] at ha
          | _ => rfl
        | asc =>
          rw [hld] at hl
          cases e <;> simp only [CRel.fetchLen, ldOk, CRel.ascFull] at * ; omega
        | full =>
          rw [hld] at hl
          simp only [ldOk] at hl
          omega
      rw [hq] at hcq ⊢
      refine ⟨{ a with ld := .full }, ?_, hr.cs, hr.rs, ⟨_, Nat.le_refl _, hcq, rfl, fun _ => rfl⟩, hr.val⟩
      simp [Reader.copychar]
    · simp only [TextScanner.copychar, M.bind_run, M.get_run, hr.cs, if_true, TextScanner.onCB]
      generalize Enc.fetchbytes e t.cb = r
      rcases r with ⟨r, t'⟩
      cases r <;> rfl
  · have h1 := hr.chr
    have hx : (TextScanner.copychar out : M (TextScanner ι) (List Byte)) t
        = (do let c ← TextScanner.chr; pure (out.print c) : M (TextScanner ι) (List Byte)) t := by
      simp only [TextScanner.copychar, M.bind_run, M.get_run, hr.cs, if_neg ho]
    have hy : (Reader.copychar out : M (AR e f) (List Byte)) a
        = (.ok (out.print (uval e f a.k)), { a with ld := .full }) := by
      simp [Reader.copychar, ho]
    rcases h1 with ⟨v, t', a', h1, h2, h3⟩ | ⟨er, t', h1, h2⟩
    · left
      simp only [AR.chr, Prod.mk.injEq, Res.ok.injEq] at h2
      obtain ⟨rfl, rfl⟩ := h2
      exact ⟨_, t', _, by rw [hx, M.bind_ok h1]; rfl, hy, h3⟩
    · right
      exact ⟨er, t', by rw [hx, M.bind_stop h1], h2⟩

theorem TRel.copychar {t : TextScanner ι} {a : AR e f} (hr : TRel S e t a) (ha : a.ld ≠ .no)
    (out : Enc) :
    SimAt S e (TextScanner.copychar out : M (TextScanner ι) (List Byte)) (Reader.copychar out)
      t a := hr.copychar' out (.inl ha)

theorem TRel.init (S : Source ι f) (e : Enc) (it : ι) (hs : S.RS it) (hr : S.R it k) :
    TRel S e (TextScanner.mk' e it) { k, ld := .no } := by
  refine ⟨rfl, hs, ⟨0, Nat.zero_le _, ⟨by simp [TextScanner.mk'], rfl, hr, ?_, ?_⟩, trivial, ?_⟩, .inl rfl⟩
  · intro i hi; omega
  · intro i hi; omega
  · intro h; exact absurd rfl h

theorem TRel.getPosition' {t : TextScanner ι} {a : AR e f} (hr : TRel S e t a)
    (hb : S.bd (a.k + ulen e f a.k)) : t.getPosition = a.k := by
  obtain ⟨p, hp, hc, -, -⟩ := hr.cb
  have hb' := S.bd_mono (a.k + p) (a.k + ulen e f a.k) (by omega) hb
  have hlt := S.bd_lt _ hb'
  unfold TextScanner.getPosition
  rw [S.pos_ok _ _ _ hr.rs hc.itr hb', hc.pos]
  omega

theorem TRel.getPosition {t : TextScanner ι} {a : AR e f} (hr : TRel S e t a)
    (hb : S.bd (a.k + 8)) : t.getPosition = a.k :=
  hr.getPosition' (S.bd_mono _ _ (by have := ulen_le e f a.k; omega) hb)

theorem TRel.getPosition_wrap {t : TextScanner ι} {a : AR e f} (hr : TRel S e t a) (hw : S.wrap) :
    t.getPosition = a.k % 2 ^ 64 := by
  obtain ⟨p, hp, hc, -, -⟩ := hr.cb
  unfold TextScanner.getPosition
  rw [S.wrap_ok hw _ _ _ hr.rs hc.itr, hc.pos]
  omega

end TW
