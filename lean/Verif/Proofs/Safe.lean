import Verif.Proofs.MachineInv
import Verif.Model.Session

/-!
# No undefined behaviour, whatever the source delivers

The argument does not relate the scanner to a text: it holds for any object with the
operations of a text scanner that has no undefined behaviour itself. In particular it
covers malformed text that is cut in chunks.
-/

namespace TW

/-- `x` has no undefined behaviour in states with `G`, and preserves `G` even if it stops. -/
def M.Safe {σ α : Type} (G : σ → Prop) (x : M σ α) : Prop := ∀ s, G s → (x s).1 ≠ .stop .ub ∧ G (x s).2

/-- From states with `P` the code `x` ends with `Q`, or it stops without undefined behaviour
in a state with `R`. -/
def M.Sat {σ α : Type} (R P : σ → Prop) (x : M σ α) (Q : α → σ → Prop) : Prop :=
  ∀ s, P s → match x s with
    | (.ok a, s') => Q a s'
    | (.stop er, s') => er ≠ .ub ∧ R s'

namespace M

variable {σ α β : Type} {G R P P' : σ → Prop}

theorem Safe.bind {x : M σ α} {g : α → M σ β} (h : Safe G x) (h' : ∀ a, Safe G (g a)) :
    Safe G (x >>= g) := by
  intro s hs
  have h1 := h s hs
  rw [bind_run]
  generalize x s = y at h1
  obtain ⟨y, s'⟩ := y
  cases y with
  | ok a => exact h' a s' h1.2
  | stop er => exact ⟨by simpa using h1.1, h1.2⟩

theorem Safe.pure (a : α) : Safe G (Pure.pure a : M σ α) := fun s hs => ⟨by simp, hs⟩

theorem Safe.get : Safe G (M.get : M σ σ) := fun s hs => ⟨by simp, hs⟩

theorem Safe.ite {c : Prop} [Decidable c] {x y : M σ α} (h : Safe G x) (h' : Safe G y) :
    Safe G (if c then x else y) := by split <;> assumption

theorem Safe.modify {g : σ → σ} (h : ∀ s, G s → G (g s)) : Safe G (M.modify g) :=
  fun s hs => ⟨by simp, h s hs⟩

theorem Sat.bind {x : M σ α} {g : α → M σ β} {Q : α → σ → Prop} {Q' : β → σ → Prop}
    (h : Sat R P x Q) (h' : ∀ a, Sat R (Q a) (g a) Q') : Sat R P (x >>= g) Q' := by
  intro s hs
  have h1 := h s hs
  rw [bind_run]
  generalize x s = y at h1
  obtain ⟨y, s'⟩ := y
  cases y with
  | ok a => exact h' a s' h1
  | stop er => exact h1

theorem Sat.pure {a : α} {Q : α → σ → Prop} (h : ∀ s, P s → Q a s) : Sat R P (Pure.pure a : M σ α) Q :=
  fun s hs => h s hs

theorem Sat.modify {g : σ → σ} {Q : Unit → σ → Prop} (h : ∀ s, P s → Q () (g s)) :
    Sat R P (M.modify g) Q := fun s hs => h s hs

/-- Reading the object. -/
theorem Sat.get {g : σ → M σ β} {Q' : β → σ → Prop} (h : ∀ s0, P s0 → Sat R (fun s => s = s0) (g s0) Q') :
    Sat R P (M.get >>= g) Q' := by
  intro s hs
  rw [bind_ok (get_run s)]
  exact h s hs s rfl

theorem Sat.pre {x : M σ α} {Q : α → σ → Prop} (h : Sat R P' x Q) (hp : ∀ s, P s → P' s) :
    Sat R P x Q := fun s hs => h s (hp s hs)

theorem Sat.post {x : M σ α} {Q Q' : α → σ → Prop} (h : Sat R P x Q) (hq : ∀ a s, Q a s → Q' a s) :
    Sat R P x Q' := by
  intro s hs
  have := h s hs
  generalize x s = y at this
  obtain ⟨y, s'⟩ := y
  cases y with
  | ok a => exact hq _ _ this
  | stop er => exact this

end M

/-! ## The text scanner -/

/-- Iterators without undefined behaviour. -/
structure SafeIter (ι : Type) [Iter ι] (G : ι → Prop) : Prop where
  deref : ∀ it, G it → Iter.deref it ≠ .stop .ub
  incr : M.Safe G (Iter.incr : M ι Unit)

theorem srcIt_safe : SafeIter SrcIt (fun _ => True) where
  deref it _ := by
    simp only [Iter.deref, SrcIt.deref]
    repeat' split
    all_goals simp
  incr it _ := by
    simp only [Iter.incr, SrcIt.incr]
    exact ⟨by simp, trivial⟩

section

variable {ι : Type} [Iter ι] {GI : ι → Prop}

open M

/-- The character buffer has 8 cells. -/
def CBOk (GI : ι → Prop) (c : CB ι) : Prop := c.buf.length = 8 ∧ GI c.itr

omit [Iter ι] in
theorem bufposM_run (c : CB ι) : CB.bufposM c = (.ok c.bufpos, c) := rfl

theorem deref_safe (hI : SafeIter ι GI) : Safe (CBOk GI) (CB.deref : M (CB ι) Byte) := by
  intro c hc
  have := hI.deref c.itr hc.2
  unfold CB.deref
  generalize Iter.deref c.itr = y at this ⊢
  cases y with
  | ok b => exact ⟨by simp, hc⟩
  | stop er => exact ⟨by simpa using this, hc⟩

theorem incr_safe (hI : SafeIter ι GI) : Safe (CBOk GI) (CB.incr : M (CB ι) Unit) := by
  intro c hc
  have := hI.incr c.itr hc.2
  unfold CB.incr
  generalize Iter.incr c.itr = y at this ⊢
  obtain ⟨y, it⟩ := y
  exact ⟨this.1, hc.1, this.2⟩

omit [Iter ι] in
theorem store_safe {i : Nat} {b : Byte} (hi : i < 8) : Safe (CBOk GI) (CB.store i b : M (CB ι) Unit) := by
  intro c hc
  unfold CB.store
  rw [if_pos (by rw [hc.1]; exact hi)]
  exact ⟨by simp, by simpa [CBOk] using hc⟩

omit [Iter ι] in
theorem load_safe {i : Nat} (hi : i < 8) : Safe (CBOk GI) (CB.load i : M (CB ι) Byte) := by
  intro c hc
  unfold CB.load
  rw [List.getElem?_eq_getElem (by rw [hc.1]; exact hi)]
  exact ⟨by simp, hc⟩

omit [Iter ι] in
theorem bump_safe : Safe (CBOk GI) (CB.bump : M (CB ι) Unit) := Safe.modify fun _ h => h

/-- Fetch a byte when there is room. -/
theorem fetch1_safe (hI : SafeIter ι GI) {c : CB ι} (hc : CBOk GI c) (hp : c.bufpos < 8) :
    ((CB.fetch1 : M (CB ι) Unit) c).1 ≠ .stop .ub ∧ CBOk GI ((CB.fetch1 : M (CB ι) Unit) c).2 ∧
    (((CB.fetch1 : M (CB ι) Unit) c).1 = .ok () → ((CB.fetch1 : M (CB ι) Unit) c).2.bufpos = c.bufpos + 1) := by
  unfold CB.fetch1
  have h1 := deref_safe hI c hc
  have hd : (CB.deref c).2 = c := by unfold CB.deref; split <;> rfl
  rw [bind_run]
  generalize hx : CB.deref c = x at h1 hd
  obtain ⟨x, c'⟩ := x
  simp only at hd
  subst hd
  cases x with
  | stop er => exact ⟨by simpa using h1.1, h1.2, by simp⟩
  | ok b =>
    simp only
    rw [bind_ok (bufposM_run c')]
    have hst : CB.store c'.bufpos b c' = (.ok (), { c' with buf := c'.buf.set c'.bufpos b }) := by
      unfold CB.store; rw [if_pos (by rw [hc.1]; exact hp)]
    rw [bind_ok hst]
    have h2 := incr_safe hI { c' with buf := c'.buf.set c'.bufpos b } ⟨by simpa using hc.1, hc.2⟩
    have hp2 : (CB.incr { c' with buf := c'.buf.set c'.bufpos b }).2.bufpos = c'.bufpos := rfl
    rw [bind_run]
    generalize CB.incr { c' with buf := c'.buf.set c'.bufpos b } = y at h2 hp2
    obtain ⟨y, c2⟩ := y
    cases y with
    | stop er => exact ⟨by simpa using h2.1, h2.2, by simp⟩
    | ok u => exact ⟨by simp [CB.bump], h2.2, fun _ => by simp only at hp2; simp [CB.bump, hp2]⟩

theorem fetchN_safe (hI : SafeIter ι GI) : ∀ (n : Nat) {c : CB ι}, CBOk GI c → c.bufpos + n ≤ 8 →
    ((CB.fetchN n : M (CB ι) Unit) c).1 ≠ .stop .ub ∧ CBOk GI ((CB.fetchN n : M (CB ι) Unit) c).2 := by
  intro n
  induction n with
  | zero => intro c hc _; exact ⟨by simp [CB.fetchN], hc⟩
  | succ n ih =>
    intro c hc hp
    unfold CB.fetchN
    obtain ⟨h1, h2, h3⟩ := fetch1_safe hI hc (by omega)
    rw [bind_run]
    generalize CB.fetch1 c = x at h1 h2 h3
    obtain ⟨x, c'⟩ := x
    cases x with
    | stop er => exact ⟨by simpa using h1, h2⟩
    | ok u =>
      have := h3 rfl
      simp only at this
      exact ih h2 (by omega)

theorem fetchUpTo_safe (hI : SafeIter ι GI) {n : Nat} (hn : n ≤ 8) :
    Safe (CBOk GI) (CB.fetchUpTo n : M (CB ι) Unit) := by
  intro c hc
  unfold CB.fetchUpTo
  rw [bind_ok (bufposM_run c)]
  by_cases h : c.bufpos ≤ n
  · exact fetchN_safe hI _ hc (by omega)
  · rw [show n - c.bufpos = 0 by omega]
    exact ⟨by simp [CB.fetchN], hc⟩

theorem skipN_safe (hI : SafeIter ι GI) (n : Nat) : Safe (CBOk GI) (CB.skipN n : M (CB ι) Unit) := by
  induction n with
  | zero => exact Safe.pure ()
  | succ n ih => exact (incr_safe hI).bind fun _ => bump_safe.bind fun _ => ih

theorem skipUpTo_safe (hI : SafeIter ι GI) (n : Nat) : Safe (CBOk GI) (CB.skipUpTo n : M (CB ι) Unit) := by
  intro c hc
  unfold CB.skipUpTo
  rw [bind_ok (bufposM_run c)]
  exact skipN_safe hI _ c hc

theorem fetchFirst_safe (hI : SafeIter ι GI) : Safe (CBOk GI) (Enc.fetchFirst : M (CB ι) Unit) := by
  intro c hc
  unfold Enc.fetchFirst
  rw [bind_ok (bufposM_run c)]
  split
  · obtain ⟨h1, h2, -⟩ := fetch1_safe hI hc (by omega)
    exact ⟨h1, h2⟩
  · exact ⟨by simp, hc⟩

theorem fetch2_safe (hI : SafeIter ι GI) : Safe (CBOk GI) (Enc.fetch2 : M (CB ι) Unit) := by
  intro c hc
  unfold Enc.fetch2
  rw [bind_ok (bufposM_run c)]
  split
  · split
    · obtain ⟨h1, h2, h3⟩ := fetch1_safe hI hc (by omega)
      rw [bind_run]
      generalize CB.fetch1 c = x at h1 h2 h3
      obtain ⟨x, c'⟩ := x
      cases x with
      | stop er => exact ⟨by simpa using h1, h2⟩
      | ok u =>
        have := h3 rfl
        simp only at this
        obtain ⟨h4, h5, -⟩ := fetch1_safe hI (c := c') h2 (by omega)
        exact ⟨h4, h5⟩
    · obtain ⟨h1, h2, -⟩ := fetch1_safe hI hc (by omega)
      exact ⟨h1, h2⟩
  · exact ⟨by simp, hc⟩

theorem charLengthTab_le (b : Nat) : charLengthTab b ≤ 8 := by
  simp only [charLengthTab, CharMap.range, CharMap.init]
  repeat' split
  all_goals omega

theorem msb_lt (be : Bool) : msb be < 2 := by cases be <;> decide
theorem lsb_lt (be : Bool) : lsb be < 2 := by cases be <;> decide

/-- `Safe`, with a property of the result. -/
def SafeB {σ α : Type} (G : σ → Prop) (B : α → Prop) (x : M σ α) : Prop :=
  Safe G x ∧ ∀ s a s', x s = (.ok a, s') → B a

theorem SafeB.bind {σ α β : Type} {G : σ → Prop} {B : α → Prop} {x : M σ α} {g : α → M σ β}
    (h : SafeB G B x) (h' : ∀ a, B a → Safe G (g a)) : Safe G (x >>= g) := by
  intro s hs
  have h1 := h.1 s hs
  have h2 := h.2 s
  rw [bind_run]
  generalize x s = y at h1 h2
  obtain ⟨y, s'⟩ := y
  cases y with
  | ok a => exact h' a (h2 a s' rfl) s' h1.2
  | stop er => exact ⟨by simpa using h1.1, h1.2⟩

theorem SafeB.after {σ α β : Type} {G : σ → Prop} {B : β → Prop} {x : M σ α} {g : α → M σ β}
    (h : Safe G x) (h' : ∀ a, SafeB G B (g a)) : SafeB G B (x >>= g) := by
  refine ⟨h.bind fun a => (h' a).1, ?_⟩
  intro s b s' hs
  rw [bind_run] at hs
  generalize x s = y at hs
  obtain ⟨y, s1⟩ := y
  cases y with
  | ok a => exact (h' a).2 _ _ _ hs
  | stop er => cases hs

theorem SafeB.pure {σ α : Type} {G : σ → Prop} {B : α → Prop} {a : α} (h : B a) :
    SafeB G B (Pure.pure a : M σ α) := by
  refine ⟨Safe.pure a, ?_⟩
  intro s b s' hs
  cases hs
  exact h

theorem SafeB.ite {σ α : Type} {G : σ → Prop} {B : α → Prop} {c : Prop} [Decidable c] {x y : M σ α}
    (h : SafeB G B x) (h' : SafeB G B y) : SafeB G B (if c then x else y) := by
  by_cases hc : c
  · rw [if_pos hc]; exact h
  · rw [if_neg hc]; exact h'

theorem utf8Size_safe (hI : SafeIter ι GI) : SafeB (CBOk GI) (· ≤ 8) (Enc.utf8Size : M (CB ι) Nat) :=
  .after (fetchFirst_safe hI) fun _ => .after (load_safe (by omega)) fun b => .pure (charLengthTab_le b)

theorem utf16Size_safe (hI : SafeIter ι GI) (be : Bool) :
    SafeB (CBOk GI) (· ≤ 4) (Enc.utf16Size be : M (CB ι) Nat) := by
  refine .after (fetch2_safe hI) fun _ => .after (load_safe (by have := msb_lt be; omega)) fun b => ?_
  exact .ite (.pure (by omega)) (.pure (by omega))

theorem fetchbytes_safe (hI : SafeIter ι GI) (e : Enc) : Safe (CBOk GI) (Enc.fetchbytes e : M (CB ι) Unit) := by
  cases e with
  | utf8 =>
    exact (fetchFirst_safe hI).bind fun _ => (utf8Size_safe hI).bind fun n hn => fetchUpTo_safe hI hn
  | utf16 be => exact fetch2_safe hI
  | ucs2 be => exact fetch2_safe hI
  | ucs4 be => exact fetchUpTo_safe hI (by omega)
  | isolatin p => exact fetchFirst_safe hI

theorem value_safe (hI : SafeIter ι GI) (e : Enc) : Safe (CBOk GI) (Enc.value e : M (CB ι) UChar) := by
  have l8 : ∀ {i : Nat}, i < 4 → Safe (CBOk GI) (CB.load i : M (CB ι) Byte) := fun h => load_safe (by omega)
  cases e with
  | utf8 =>
    exact ((fetchFirst_safe hI).bind fun _ => (utf8Size_safe hI).bind fun n hn => fetchUpTo_safe hI hn).bind
      fun _ => Safe.get.bind fun _ => Safe.pure _
  | utf16 be =>
    refine (utf16Size_safe hI be).bind fun n hn => (l8 (by have := msb_lt be; omega)).bind fun _ =>
      (l8 (by have := lsb_lt be; omega)).bind fun _ => ?_
    refine Safe.ite ?_ (Safe.pure _)
    exact (fetchUpTo_safe hI (by omega)).bind fun _ => (l8 (by have := msb_lt be; omega)).bind fun _ =>
      (l8 (by have := lsb_lt be; omega)).bind fun _ => Safe.pure _
  | ucs2 be =>
    exact (fetch2_safe hI).bind fun _ => (l8 (by have := msb_lt be; omega)).bind fun _ =>
      (l8 (by have := lsb_lt be; omega)).bind fun _ => Safe.pure _
  | ucs4 be =>
    exact (fetchUpTo_safe hI (by omega)).bind fun _ => (l8 (by split <;> omega)).bind fun _ =>
      (l8 (by split <;> omega)).bind fun _ => (l8 (by split <;> omega)).bind fun _ =>
      (l8 (by split <;> omega)).bind fun _ => Safe.pure _
  | isolatin p =>
    exact (fetchFirst_safe hI).bind fun _ => (l8 (by omega)).bind fun _ => Safe.pure _

theorem asciichar_safe (hI : SafeIter ι GI) (e : Enc) : Safe (CBOk GI) (Enc.asciichar e : M (CB ι) Byte) := by
  cases e with
  | utf8 => exact (fetchFirst_safe hI).bind fun _ => (load_safe (by omega)).bind fun _ => Safe.pure _
  | isolatin p => exact (fetchFirst_safe hI).bind fun _ => (load_safe (by omega)).bind fun _ => Safe.pure _
  | utf16 be => exact (value_safe hI (.utf16 be)).bind fun _ => Safe.pure _
  | ucs2 be => exact (value_safe hI (.ucs2 be)).bind fun _ => Safe.pure _
  | ucs4 be => exact (value_safe hI (.ucs4 be)).bind fun _ => Safe.pure _

theorem encSkip_safe (hI : SafeIter ι GI) (e : Enc) : Safe (CBOk GI) (Enc.skip e : M (CB ι) Unit) := by
  cases e with
  | utf8 => exact (utf8Size_safe hI).bind fun n _ => skipUpTo_safe hI n
  | utf16 be => exact (utf16Size_safe hI be).bind fun n _ => skipUpTo_safe hI n
  | ucs2 be => exact skipUpTo_safe hI 2
  | ucs4 be => exact skipUpTo_safe hI 4
  | isolatin p => exact skipUpTo_safe hI 1

/-- The text scanner is in order. -/
def TextOk (GI : ι → Prop) (t : TextScanner ι) : Prop := CBOk GI t.cb

omit [Iter ι] in
theorem onCB_safe {α : Type} {x : Enc → M (CB ι) α} (h : ∀ e, Safe (CBOk GI) (x e)) :
    Safe (TextOk GI) (TextScanner.onCB x) := by
  intro t ht
  have := h t.charset t.cb ht
  unfold TextScanner.onCB
  generalize x t.charset t.cb = y at this
  exact this

end

/-- Readers without undefined behaviour. -/
structure SafeReader (ρ : Type) [Reader ρ] (G : ρ → Prop) : Prop where
  control : M.Safe G (Reader.control : M ρ Cc)
  ascii : M.Safe G (Reader.ascii : M ρ Byte)
  copychar : ∀ e, M.Safe G (Reader.copychar e : M ρ (List Byte))
  skip : M.Safe G (Reader.skip : M ρ Unit)

theorem textScanner_safe {ι : Type} [Iter ι] {GI : ι → Prop} (hI : SafeIter ι GI) :
    SafeReader (TextScanner ι) (TextOk GI) := by
  have hcur : M.Safe (TextOk GI) (TextScanner.getcur : M (TextScanner ι) Unit) :=
    (onCB_safe (asciichar_safe hI)).bind fun _ => M.Safe.modify fun _ h => h
  have hchr : M.Safe (TextOk GI) (TextScanner.chr : M (TextScanner ι) UChar) :=
    M.Safe.get.bind fun _ => M.Safe.ite ((onCB_safe (value_safe hI)).bind fun _ =>
      (M.Safe.modify fun _ h => h).bind fun _ => M.Safe.pure _) (M.Safe.pure _)
  exact {
    control := hcur.bind fun _ => M.Safe.get.bind fun _ => M.Safe.pure _
    ascii := hcur.bind fun _ => M.Safe.get.bind fun _ => M.Safe.pure _
    copychar := fun e => by
      show M.Safe _ (TextScanner.copychar e)
      unfold TextScanner.copychar
      refine M.Safe.get.bind fun t => ?_
      by_cases h : t.charset = e
      · rw [if_pos h]
        exact (onCB_safe (fetchbytes_safe hI)).bind fun _ => M.Safe.get.bind fun _ => M.Safe.pure _
      · rw [if_neg h]
        exact hchr.bind fun _ => M.Safe.pure _
    skip := (onCB_safe (encSkip_safe hI)).bind fun _ => M.Safe.modify fun _ h => h }

/-! ## The scanner -/

namespace Mach

/-- State and token state at a point where a call with the given mask can be left by the end
of a chunk. -/
structure Core (mask : Nat) (st : STMState) (t : TokState) : Prop where
  buf : t.buf.length = 16
  pos : t.pos ≤ 16
  pos15 : t.id ≠ .ParsingNumericBaseEntity → t.pos ≤ 15
  base : t.base ≤ 16
  pos0 : hasPos t.id = false → t.pos = 0
  key : t.id = .ParsingKey → ∃ str op, Keys st str op ∧ t.pos ≤ str.length
  tok : inTok t.id = true → ∃ isTok arg, Reads mask st isTok arg
  val : t.value < 16 ^ t.pos

/-- Token state between two calls. -/
structure Core0 (t : TokState) : Prop where
  buf : t.buf.length = 16
  pos : t.pos = 0
  base : t.base ≤ 16
  id : t.id = .Start ∨ t.id = .ParsingDone
  val : t.value = 0

theorem Core0.core {t : TokState} (h : Core0 t) (mask : Nat) (st : STMState) : Core mask st t := by
  refine ⟨h.buf, by rw [h.pos]; omega, fun _ => by rw [h.pos]; omega, h.base, fun _ => h.pos, ?_, ?_, ?_⟩
  · intro h1; rcases h.id with h2 | h2 <;> rw [h1] at h2 <;> cases h2
  · intro h1; rcases h.id with h2 | h2 <;> rw [h2] at h1 <;> cases h1
  · rw [h.val, h.pos]; decide

/-- A state inside of a token right after `init`. -/
theorem core_init {mask : Nat} {st : STMState} {isTok : Cc → Bool} {arg : ElementType} {t : TokState}
    (hb : t.buf.length = 16) (hr : Reads mask st isTok arg) : Core mask st (t.init .ParsingToken) :=
  ⟨hb, Nat.zero_le _, fun _ => Nat.zero_le _, Nat.zero_le _, fun _ => rfl, (fun h => nomatch h),
    fun _ => ⟨_, _, hr⟩, Nat.zero_lt_one⟩

end Mach

section

open M Mach

variable {ρ : Type} {G : ρ → Prop} {mask : Nat} {st : STMState} {t : TokState}

/-- The scanner has the given state and token state, and its reader is in order. -/
def Ex (G : ρ → Prop) (st : STMState) (t : TokState) (s : Scanner ρ) : Prop :=
  G s.src ∧ s.state = st ∧ s.tok = t

/-- The scanner has a state and token state with property `E`, and its reader is in order. -/
def Pre (G : ρ → Prop) (E : STMState → TokState → Prop) (s : Scanner ρ) : Prop :=
  G s.src ∧ E s.state s.tok

/-- Where a call may be interrupted. -/
abbrev Rest (G : ρ → Prop) (mask : Nat) : Scanner ρ → Prop := Pre G (Core mask)

variable {α : Type}

theorem sat_read {x : M ρ α} (hx : Safe G x) (h : Core mask st t) :
    Sat (Rest G mask) (Ex G st t) (Scanner.onSrc x) (fun _ => Ex G st t) := by
  intro s hs
  have := hx s.src hs.1
  unfold Scanner.onSrc
  generalize x s.src = y at this
  obtain ⟨y, r⟩ := y
  cases y with
  | ok a => exact ⟨this.2, hs.2⟩
  | stop er =>
    refine ⟨by simpa using this.1, this.2, ?_⟩
    show Core mask s.state s.tok
    rw [hs.2.1, hs.2.2]
    exact h

theorem sat_modTok {R : Scanner ρ → Prop} {g : TokState → TokState} :
    Sat R (Ex G st t) (Scanner.modTok g) (fun _ => Ex G st (g t)) :=
  Sat.modify fun s hs => ⟨hs.1, hs.2.1, by show g s.tok = g t; rw [hs.2.2]⟩

theorem sat_push {R : Scanner ρ → Prop} {c : UChar} :
    Sat R (Ex G st t) (Scanner.push c) (fun _ => Ex G st t) :=
  Sat.modify fun _ hs => hs

theorem sat_error {R : Scanner ρ → Prop} {er : Err} :
    Sat R (Ex G st t) (Scanner.setError er) (fun _ => Ex G st t) :=
  Sat.modify fun _ hs => hs

theorem sat_get {R : Scanner ρ → Prop} {g : Scanner ρ → M (Scanner ρ) α} {Q : α → Scanner ρ → Prop}
    (h : ∀ s0 : Scanner ρ, s0.state = st → s0.tok = t → Sat R (Ex G st t) (g s0) Q) :
    Sat R (Ex G st t) (M.get >>= g) Q := by
  refine Sat.get fun s0 hs0 s hs => ?_
  subst hs
  exact h s hs0.2.1 hs0.2.2 s hs0

theorem sat_store {R : Scanner ρ → Prop} {i : Nat} {b : Byte} (hb : t.buf.length = 16) (hi : i < 16) :
    Sat R (Ex G st t) (Scanner.storeTok i b) (fun _ => Ex G st { t with buf := t.buf.set i b }) := by
  intro s hs
  obtain ⟨h1, h2, rfl⟩ := hs
  unfold Scanner.storeTok
  rw [if_pos (by rw [hb]; exact hi)]
  exact ⟨h1, h2, rfl⟩

theorem sat_pushAll {R : Scanner ρ → Prop} (cs : List UChar) :
    Sat R (Ex G st t) (Scanner.pushAll cs) (fun _ => Ex G st t) := by
  induction cs with
  | nil => exact Sat.pure fun _ h => h
  | cons c cs ih => exact sat_push.bind fun _ => ih

variable [Reader ρ]

omit [Reader ρ] in
theorem sat_fallback {R : Scanner ρ → Prop} :
    Sat R (Ex G st t) Scanner.fallbackEntity (fun _ => Ex G st t) := by
  refine sat_get fun s0 _ _ => ?_
  split
  · exact Sat.pure fun _ h => h
  · exact Sat.pure fun _ h => h
  · exact Sat.pure fun _ h => h
  · exact Sat.pure fun _ h => h
  · exact sat_push
  · exact sat_push.bind fun _ => sat_push
  · exact sat_push.bind fun _ => sat_push.bind fun _ => sat_pushAll _
  · exact sat_push.bind fun _ => sat_pushAll _

/-- Only the length of the entity buffer is known. -/
def Buf16 (st : STMState) : STMState → TokState → Prop := fun st' t => st' = st ∧ t.buf.length = 16

omit [Reader ρ] in
theorem Ex.buf16 {s : Scanner ρ} (h : Ex G st t s) (hb : t.buf.length = 16) : Pre G (Buf16 st) s :=
  ⟨h.1, h.2.1, by rw [h.2.2]; exact hb⟩

omit [Reader ρ] in
/-- Make the state and token state explicit. -/
theorem sat_ex {R : Scanner ρ → Prop} {E : STMState → TokState → Prop} {x : M (Scanner ρ) α}
    {Q : α → Scanner ρ → Prop} (h : ∀ st t, E st t → Sat R (Ex G st t) x Q) : Sat R (Pre G E) x Q :=
  fun s hs => h _ _ hs.2 s ⟨hs.1, rfl, rfl⟩

variable (hG : SafeReader ρ G) {isTok : Cc → Bool} {arg : ElementType} (hr : Reads mask st isTok arg)

include hG hr

theorem numericLoop_sat (k : Nat) : ∀ {t : TokState}, t.id = .ParsingNumericBaseEntity → t.buf.length = 16 →
    t.base ≤ 16 → t.value < 16 ^ t.pos → t.pos + k ≤ 16 →
    Sat (Rest G mask) (Ex G st t) (Scanner.numericLoop k) (fun _ => Pre G (Buf16 st)) := by
  induction k with
  | zero =>
    intro t hid hb hbs hv hp
    exact sat_fallback.bind fun _ => Sat.pure fun s hs => hs.buf16 hb
  | succ k ih =>
    intro t hid hb hbs hv hp
    have hcore : ∀ t' : TokState, t'.id = .ParsingNumericBaseEntity → t'.buf.length = 16 → t'.base ≤ 16 →
        t'.value < 16 ^ t'.pos → t'.pos ≤ 16 → Core mask st t' := fun t' h1 h2 h3 h4 h5 =>
      ⟨h2, h5, fun h => absurd h1 h, h3, (fun h => by rw [h1] at h; cases h), (fun h => by rw [h1] at h; cases h),
        fun _ => ⟨_, _, hr⟩, h4⟩
    unfold Scanner.numericLoop
    refine (sat_read hG.ascii (hcore t hid hb hbs hv (by omega))).bind fun ch => sat_get fun s0 h0 h1 => ?_
    rw [h1]
    by_cases hch : ch = 59
    · rw [if_pos hch]
      by_cases hbig : 0xFFFFFFFF < t.value
      · rw [if_pos hbig]
        refine (sat_store hb (by omega)).bind fun _ => sat_modTok.bind fun _ => sat_fallback.bind fun _ =>
          Sat.pure fun s hs => hs.buf16 (by simpa using hb)
      · rw [if_neg hbig]
        exact sat_push.bind fun _ => sat_modTok.bind fun _ =>
          (sat_read hG.skip (core_init hb hr)).bind fun _ => Sat.pure fun s hs => hs.buf16 hb
    · rw [if_neg hch]
      by_cases hhex : t.base ≤ hexVal ch
      · rw [if_pos hhex]
        exact sat_fallback.bind fun _ => Sat.pure fun s hs => hs.buf16 hb
      · rw [if_neg hhex]
        have hv' : (t.value * t.base + hexVal ch) % 2 ^ 64 < 16 ^ (t.pos + 1) := by
          refine Nat.lt_of_le_of_lt (Nat.mod_le _ _) ?_
          have h1 : t.value * t.base ≤ t.value * 16 := Nat.mul_le_mul_left _ hbs
          rw [Nat.pow_succ]
          omega
        have hc2 : Core mask st { t with buf := t.buf.set t.pos ch, pos := t.pos + 1,
                                         value := (t.value * t.base + hexVal ch) % 2 ^ 64 } :=
          hcore _ hid (by simpa using hb) hbs hv' (by simp only; omega)
        refine (sat_store hb (by omega)).bind fun _ => sat_modTok.bind fun _ => sat_modTok.bind fun _ =>
          (sat_read hG.skip hc2).bind fun _ => ?_
        exact ih hid (by simpa using hb) hbs hv' (by simp only; omega)

theorem parseNumericBaseEntity_sat {t : TokState} (hb : t.buf.length = 16)
    (hbs : t.base ≤ 16) (hv : t.value < 16 ^ t.pos) (hp : t.pos ≤ 16) :
    Sat (Rest G mask) (Ex G st t) Scanner.parseNumericBaseEntity (fun _ => Pre G (Buf16 st)) := by
  refine sat_modTok.bind fun _ => sat_get fun s0 h0 h1 => ?_
  rw [h1]
  exact numericLoop_sat hG hr _ rfl hb hbs hv (by simp only; omega)

omit hG [Reader ρ] in
/-- Token states inside of an entity before its first character. -/
theorem core_entity {t : TokState} (hid : t.id = .ParsingEntity ∨ t.id = .ParsingNumericEntity)
    (hb : t.buf.length = 16) (hp : t.pos = 0) (hbs : t.base ≤ 16) (hv : t.value = 0) : Core mask st t := by
  refine ⟨hb, by omega, fun _ => by omega, hbs, fun _ => hp, ?_, fun _ => ⟨_, _, hr⟩, by rw [hv, hp]; decide⟩
  intro h; rcases hid with h2 | h2 <;> rw [h] at h2 <;> cases h2

theorem parseNumericEntity_sat {t : TokState} (hb : t.buf.length = 16)
    (hp : t.pos = 0) (hbs : t.base ≤ 16) (hv : t.value = 0) :
    Sat (Rest G mask) (Ex G st t) Scanner.parseNumericEntity (fun _ => Pre G (Buf16 st)) := by
  have hv' : t.value < 16 ^ t.pos := by rw [hv, hp]; decide
  have hc1 : Core mask st { t with id := .ParsingNumericEntity } := core_entity hr (.inr rfl) hb hp hbs hv
  have hc2 : Core mask st { t with id := .ParsingNumericEntity, base := 16 } :=
    core_entity hr (.inr rfl) hb hp (by simp) hv
  refine sat_modTok.bind fun _ => (sat_read hG.ascii hc1).bind fun ch => ?_
  by_cases hch : ch = 120
  · rw [if_pos hch]
    refine sat_modTok.bind fun _ => (sat_read hG.skip hc2).bind fun _ => ?_
    exact parseNumericBaseEntity_sat hG hr hb (by simp) hv' (by simp only; omega)
  · rw [if_neg hch]
    exact sat_modTok.bind fun _ => parseNumericBaseEntity_sat hG hr hb (by simp) hv' (by simp only; omega)

omit hr hG [Reader ρ] in
/-- Only the error code may change. -/
theorem pushEntity_sat {R : Scanner ρ → Prop} (name : List Byte) :
    Sat R (Ex G st t) (Scanner.pushEntity name) (fun _ => Ex G st t) := by
  unfold Scanner.pushEntity
  split
  · exact sat_push.bind fun _ => Sat.pure fun _ h => h
  · refine sat_get fun s0 _ _ => ?_
    split
    · split
      · exact sat_push.bind fun _ => Sat.pure fun _ h => h
      · exact sat_error.bind fun _ => Sat.pure fun _ h => h
    · exact sat_error.bind fun _ => Sat.pure fun _ h => h

/-- Inside of a named entity. -/
def NamedOk (st : STMState) : STMState → TokState → Prop := fun st' t =>
  st' = st ∧ t.id = .ParsingNamedEntity ∧ t.buf.length = 16 ∧ t.base ≤ 16 ∧ t.value < 16 ^ t.pos ∧ t.pos ≤ 15

omit hG [Reader ρ] in
theorem namedOk_core {st' : STMState} {t : TokState} (h : NamedOk st st' t) : Core mask st' t := by
  obtain ⟨rfl, h1, h2, h3, h4, h5⟩ := h
  refine ⟨h2, by omega, fun _ => h5, h3, (fun h => by rw [h1] at h; cases h), (fun h => by rw [h1] at h; cases h),
    fun _ => ⟨_, _, hr⟩, h4⟩

theorem namedLoop_sat (k : Nat) : ∀ {ch : Byte} {t : TokState}, NamedOk st st t → t.pos + k ≤ 15 →
    Sat (Rest G mask) (Ex G st t) (Scanner.namedLoop k ch) (fun _ => Pre G (NamedOk st)) := by
  induction k with
  | zero =>
    intro ch t h _
    exact Sat.pure fun s hs => ⟨hs.1, by rw [hs.2.1, hs.2.2]; exact h⟩
  | succ k ih =>
    intro ch t h hp
    have hend : Sat (Rest G mask) (Ex G st t) (Pure.pure ch : M (Scanner ρ) Byte) (fun _ => Pre G (NamedOk st)) :=
      Sat.pure fun s hs => ⟨hs.1, by rw [hs.2.1, hs.2.2]; exact h⟩
    unfold Scanner.namedLoop
    by_cases hch : ch ≠ 59
    · rw [if_pos hch]
      refine (sat_read hG.control (namedOk_core hr h)).bind fun c => ?_
      by_cases hc : c = .Any
      · rw [if_pos hc]
        refine sat_get fun s0 h0 h1 => ?_
        rw [h1]
        obtain ⟨h2, h3, h4, h5, h6, h7⟩ := h
        have hn : NamedOk st st { t with buf := t.buf.set t.pos ch } := ⟨rfl, h3, by simpa using h4, h5, h6, h7⟩
        have hn2 : NamedOk st st { t with buf := t.buf.set t.pos ch, pos := t.pos + 1 } :=
          ⟨rfl, h3, by simpa using h4, h5,
            Nat.lt_of_lt_of_le h6 (Nat.pow_le_pow_right (by omega) (Nat.le_succ _)), by simp only; omega⟩
        refine (sat_store h4 (by omega)).bind fun _ => (sat_read hG.skip (namedOk_core hr hn)).bind fun _ =>
          sat_modTok.bind fun _ => (sat_read hG.ascii (namedOk_core hr hn2)).bind fun ch' => ?_
        exact ih hn2 (by simp only; omega)
      · rw [if_neg hc]; exact hend
    · rw [if_neg hch]; exact hend

theorem parseNamedEntity_sat {t : TokState} (hb : t.buf.length = 16)
    (hp : t.pos ≤ 15) (hbs : t.base ≤ 16) (hv : t.value < 16 ^ t.pos) :
    Sat (Rest G mask) (Ex G st t) Scanner.parseNamedEntity (fun _ => Pre G (Buf16 st)) := by
  have hn : NamedOk st st { t with id := .ParsingNamedEntity } := ⟨rfl, rfl, hb, hbs, hv, hp⟩
  refine sat_modTok.bind fun _ => (sat_read hG.ascii (namedOk_core hr hn)).bind fun ch =>
    sat_get fun s0 h0 h1 => ?_
  rw [h1]
  refine (namedLoop_sat hG hr _ hn (by simp only; omega)).bind fun ch => sat_ex fun st' t' h => ?_
  obtain ⟨rfl, h2, h3, h4, h5, h6⟩ := h
  by_cases hch : ch = 59
  · rw [if_pos hch]
    refine sat_get fun s1 h7 h8 => ?_
    rw [h8]
    refine (sat_store h3 (by omega)).bind fun _ => sat_get fun s2 h9 h10 => ?_
    refine (pushEntity_sat _).bind fun r => ?_
    cases r with
    | true =>
      simp only [if_true]
      exact sat_modTok.bind fun _ => (sat_read hG.skip (core_init (by simpa using h3) hr)).bind fun _ =>
        Sat.pure fun s hs => hs.buf16 (by simpa [TokState.init] using h3)
    | false =>
      simp only [Bool.false_eq_true, if_false]
      exact Sat.pure fun s hs => hs.buf16 (by simpa using h3)
  · rw [if_neg hch]
    exact sat_fallback.bind fun _ => Sat.pure fun s hs => hs.buf16 h3

theorem parseEntity_sat {t : TokState} (hb : t.buf.length = 16)
    (hp : t.pos = 0) (hbs : t.base ≤ 16) (hv : t.value = 0) :
    Sat (Rest G mask) (Ex G st t) Scanner.parseEntity (fun _ => Pre G (Buf16 st)) := by
  have hc : Core mask st { t with id := .ParsingEntity } := core_entity hr (.inl rfl) hb hp hbs hv
  refine sat_modTok.bind fun _ => (sat_read hG.ascii hc).bind fun ch => ?_
  by_cases hch : ch = 35
  · rw [if_pos hch]
    exact (sat_read hG.skip hc).bind fun _ => parseNumericEntity_sat hG hr hb hp hbs hv
  · rw [if_neg hch]
    exact parseNamedEntity_sat hG hr hb (by simp only; omega) hbs (by simp only; rw [hv, hp]; decide)

omit hr hG [Reader ρ] in
/-- The token state after `init`. -/
theorem sat_init {R : Scanner ρ → Prop} {id : TokId} {β : Type} {x : M (Scanner ρ) β} {Q : β → Scanner ρ → Prop}
    (h : ∀ t : TokState, t.id = id → t.buf.length = 16 → t.pos = 0 → t.base ≤ 16 → t.value = 0 →
      Sat R (Ex G st t) x Q) :
    Sat R (Pre G (Buf16 st)) (Scanner.tokInit id >>= fun _ => x) Q := by
  refine sat_ex fun st' t ht => ?_
  obtain ⟨rfl, hb⟩ := ht
  exact sat_modTok.bind fun _ => h _ rfl hb rfl (Nat.zero_le _) rfl

theorem parseTokenRecover_sat {t : TokState} (hc : Core mask st t) :
    Sat (Rest G mask) (Ex G st t) Scanner.parseTokenRecover
      (fun r => Pre G fun st' t => st' = st ∧ t.buf.length = 16 ∧ (r = true → Core mask st t ∧ t.pos = 0 ∧
        t.value = 0 ∧ t.id = .ParsingToken)) := by
  have fin : ∀ r : Bool, Sat (Rest G mask) (Pre G (Buf16 st))
      (Scanner.tokInit .ParsingToken >>= fun _ => (Pure.pure r : M (Scanner ρ) Bool))
      (fun r => Pre G fun st' t => st' = st ∧ t.buf.length = 16 ∧ (r = true → Core mask st t ∧ t.pos = 0 ∧
        t.value = 0 ∧ t.id = .ParsingToken)) := by
    intro r
    refine sat_init fun t h1 h2 h3 h4 h5 => Sat.pure fun s hs => ⟨hs.1, hs.2.1, ?_, fun _ => ?_⟩
    · rw [hs.2.2]; exact h2
    · rw [hs.2.2]
      exact ⟨⟨h2, by omega, fun _ => by omega, h4, fun _ => h3, (fun h => by rw [h1] at h; cases h),
        fun _ => ⟨_, _, hr⟩, by rw [h5, h3]; decide⟩, h3, h5, h1⟩
  have bad : Sat (Rest G mask) (Ex G st t)
      (Scanner.setError .ErrInternal >>= fun _ => (Pure.pure false : M (Scanner ρ) Bool))
      (fun r => Pre G fun st' t => st' = st ∧ t.buf.length = 16 ∧ (r = true → Core mask st t ∧ t.pos = 0 ∧
        t.value = 0 ∧ t.id = .ParsingToken)) :=
    sat_error.bind fun _ => Sat.pure fun s hs => ⟨hs.1, hs.2.1, by rw [hs.2.2]; exact hc.buf, (fun h => nomatch h)⟩
  have v0 : t.pos = 0 → t.value = 0 := by
    intro h; have := hc.val; rw [h] at this; omega
  refine sat_get fun s0 h0 h1 => ?_
  rw [h1]
  cases hid : t.id
  · exact bad
  · exact bad
  · exact bad
  · have hp := hc.pos0 (by rw [hid]; rfl)
    exact (parseEntity_sat hG hr hc.buf hp hc.base (v0 hp)).bind fin
  · have hp := hc.pos0 (by rw [hid]; rfl)
    exact (parseNumericEntity_sat hG hr hc.buf hp hc.base (v0 hp)).bind fin
  · exact (parseNumericBaseEntity_sat hG hr hc.buf hc.base hc.val hc.pos).bind fin
  · exact (parseNamedEntity_sat hG hr hc.buf (hc.pos15 (by rw [hid]; simp)) hc.base hc.val).bind fin
  · exact bad

/-- Inside of a token, not in an entity. -/
def TokOk (st : STMState) : STMState → TokState → Prop := fun st' t =>
  st' = st ∧ t.id = .ParsingToken ∧ t.buf.length = 16 ∧ t.pos = 0 ∧ t.base ≤ 16 ∧ t.value = 0

omit hG [Reader ρ] in
theorem tokOk_core {st' : STMState} {t : TokState} (h : TokOk st st' t) : Core mask st' t := by
  obtain ⟨rfl, h1, h2, h3, h4, h5⟩ := h
  exact ⟨h2, by omega, fun _ => by omega, h4, fun _ => h3, (fun h => by rw [h1] at h; cases h),
    fun _ => ⟨_, _, hr⟩, by rw [h5, h3]; decide⟩

omit hr in
theorem copychar_sat {t : TokState} (h : Core mask st t) :
    Sat (Rest G mask) (Ex G st t) Scanner.copychar (fun _ => Ex G st t) := by
  refine sat_get fun s0 _ _ => (sat_read (hG.copychar _) h).bind fun bs => ?_
  exact Sat.modify fun _ hs => hs

theorem tokenChar_sat {t : TokState} (h : TokOk st st t) :
    Sat (Rest G mask) (Ex G st t) Scanner.tokenChar (fun _ => Pre G (TokOk st)) := by
  have hc := tokOk_core hr h
  have heol : ∀ b : Bool, Sat (Rest G mask) (Ex G st t) (Scanner.modTok fun t => { t with eolCR := b })
      (fun _ => Pre G (TokOk st)) := fun b => by
    refine (sat_modTok (G := G) (st := st) (t := t)).post fun _ s hs => ⟨hs.1, ?_⟩
    rw [hs.2.1, hs.2.2]
    exact h
  refine (sat_read hG.ascii hc).bind fun aa => ?_
  have hcopy : Sat (Rest G mask) (Ex G st t)
      (Scanner.copychar >>= fun _ => Scanner.modTok fun t => { t with eolCR := false })
      (fun _ => Pre G (TokOk st)) := (copychar_sat hG hc).bind fun _ => heol false
  by_cases h1 : aa ≤ 0xD
  · rw [if_pos h1]
    by_cases h2 : aa = 13
    · rw [if_pos h2]
      exact sat_push.bind fun _ => heol true
    · rw [if_neg h2]
      by_cases h3 : aa = 10
      · rw [if_pos h3]
        refine sat_get fun s0 _ _ => ?_
        by_cases h4 : s0.tok.eolCR = true
        · rw [if_pos h4]
          exact heol false
        · rw [if_neg h4]
          exact sat_push.bind fun _ => heol false
      · rw [if_neg h3]; exact hcopy
  · rw [if_neg h1]; exact hcopy

theorem tokenLoop_sat (isTok' : Cc → Bool) (n : Nat) : ∀ {t : TokState}, TokOk st st t →
    Sat (Rest G mask) (Ex G st t) (Scanner.tokenLoop isTok' n)
      (fun _ => Pre G fun st' t => st' = st ∧ Core0 t) := by
  induction n with
  | zero =>
    intro t h s hs
    refine ⟨by simp, hs.1, ?_⟩
    show Core mask s.state s.tok
    rw [hs.2.1, hs.2.2]
    exact tokOk_core hr h
  | succ n ih =>
    intro t h
    have hc := tokOk_core hr h
    obtain ⟨h1, h2, h3, h4, h5, h6⟩ := id h
    unfold Scanner.tokenLoop
    refine (sat_read hG.control hc).bind fun ch => ?_
    by_cases hch : isTok' ch = true
    · rw [if_pos hch]
      refine (tokenChar_sat hG hr h).bind fun _ => sat_ex fun st' t' h' => ?_
      obtain rfl := h'.1
      exact (sat_read hG.skip (tokOk_core hr h')).bind fun _ => ih h'
    · rw [if_neg hch]
      by_cases hamp : ch = .Amp
      · rw [if_pos hamp]
        refine (sat_read hG.skip hc).bind fun _ => (parseEntity_sat hG hr h3 h4 h5 h6).bind fun r => ?_
        cases r with
        | true =>
          simp only [if_true]
          exact sat_init fun t' g1 g2 g3 g4 g5 => ih ⟨rfl, g1, g2, g3, g4, g5⟩
        | false =>
          simp only [Bool.false_eq_true, if_false]
          refine sat_init fun t' g1 g2 g3 g4 g5 => Sat.pure fun s hs => ⟨hs.1, hs.2.1, ?_⟩
          rw [hs.2.2]
          exact ⟨g2, g3, g4, .inl g1, g5⟩
      · rw [if_neg hamp]
        refine (sat_modTok (t := t)).bind fun _ => Sat.pure fun s hs => ⟨hs.1, hs.2.1, ?_⟩
        rw [hs.2.2]
        exact ⟨h3, rfl, Nat.zero_le _, .inr rfl, rfl⟩

theorem parseToken_sat (isTok' : Cc → Bool) (n : Nat) {t : TokState} (h : Core mask st t) :
    Sat (Rest G mask) (Ex G st t) (Scanner.parseToken n isTok')
      (fun _ => Pre G fun st' t => st' = st ∧ Core0 t) := by
  have v0 : t.pos = 0 → t.value = 0 := by
    intro h0; have := h.val; rw [h0] at this; omega
  refine sat_get fun s0 h0 h1 => ?_
  rw [h1]
  by_cases hs : t.id = .Start
  · rw [if_pos hs]
    have hp := h.pos0 (by rw [hs]; rfl)
    refine Sat.bind (Q := fun _ => Ex G st t) (Sat.modify fun s hs => hs) fun _ => ?_
    exact sat_modTok.bind fun _ => tokenLoop_sat hG hr isTok' n ⟨rfl, rfl, h.buf, hp, h.base, v0 hp⟩
  · rw [if_neg hs]
    by_cases ht : t.id ≠ .ParsingToken
    · rw [if_pos ht]
      refine (parseTokenRecover_sat hG hr h).bind fun r => sat_ex fun st' t' h' => ?_
      obtain ⟨rfl, g1, g2⟩ := h'
      cases r with
      | true =>
        obtain ⟨g3, g4, g5, g6⟩ := g2 rfl
        simp only [if_true]
        exact tokenLoop_sat hG hr isTok' n ⟨rfl, g6, g1, g4, g3.base, g5⟩
      | false =>
        simp only [Bool.false_eq_true, if_false]
        refine (sat_modTok (t := t')).bind fun _ => Sat.pure fun s hs => ⟨hs.1, hs.2.1, ?_⟩
        rw [hs.2.2]
        exact ⟨g1, rfl, Nat.zero_le _, .inl rfl, rfl⟩
    · rw [if_neg ht]
      have ht : t.id = .ParsingToken := by simpa using ht
      have hp := h.pos0 (by rw [ht]; rfl)
      exact tokenLoop_sat hG hr isTok' n ⟨rfl, ht, h.buf, hp, h.base, v0 hp⟩

omit hr in
theorem skipToken_sat (isTok' : Cc → Bool) (n : Nat) {t : TokState} (h : Core mask st t) :
    Sat (Rest G mask) (Ex G st t) (Scanner.skipToken isTok' n) (fun _ => Ex G st t) := by
  induction n with
  | zero =>
    intro s hs
    refine ⟨by simp, hs.1, ?_⟩
    show Core mask s.state s.tok
    rw [hs.2.1, hs.2.2]
    exact h
  | succ n ih =>
    unfold Scanner.skipToken
    refine (sat_read hG.control h).bind fun ch => ?_
    split
    · exact (sat_read hG.skip h).bind fun _ => ih
    · refine (sat_read hG.control h).bind fun ch => ?_
      split
      · exact ih
      · exact Sat.pure fun _ h => h

omit hr in
theorem expectLoop_sat {str : List Byte} {op : STMAction} (hk : Keys st str op) (hl : str.length ≤ 15)
    (cs : List Byte) : ∀ {t : TokState},
    Core mask st t → t.id = .ParsingKey → t.pos + cs.length ≤ str.length →
    Sat (Rest G mask) (Ex G st t) (Scanner.expectLoop cs) (fun _ => Pre G (Buf16 st)) := by
  induction cs with
  | nil => intro t h _ _; exact Sat.pure fun s hs => hs.buf16 h.buf
  | cons c cs ih =>
    intro t h hid hp
    simp only [List.length_cons] at hp
    unfold Scanner.expectLoop
    refine (sat_read hG.ascii h).bind fun a => ?_
    by_cases ha : a = c
    · rw [if_pos ha]
      refine (sat_read hG.skip h).bind fun _ => sat_modTok.bind fun _ => ih ?_ hid (by simp only; omega)
      refine ⟨h.buf, by simp only; omega, fun _ => by simp only; omega, h.base, ?_, ?_, ?_, ?_⟩
      · intro h1; simp only [hid, hasPos] at h1; cases h1
      · intro _; exact ⟨str, op, hk, by simp only; omega⟩
      · intro h1; simp only [hid, inTok] at h1; cases h1
      · exact Nat.lt_of_lt_of_le h.val (Nat.pow_le_pow_right (by omega) (Nat.le_succ _))
    · rw [if_neg ha]
      exact (sat_read hG.control h).bind fun ch => sat_error.bind fun _ =>
        Sat.pure fun s hs => hs.buf16 h.buf

omit hr in
theorem expectStr_sat {str : List Byte} {op : STMAction} (hk : Keys st str op) (hl : str.length ≤ 15)
    {t : TokState} (h : Core mask st t) (hpos : t.pos ≤ str.length) :
    Sat (Rest G mask) (Ex G st t) (Scanner.expectStr str) (fun _ => Pre G fun st' t => st' = st ∧ Core0 t) := by
  have hc : Core mask st { t with id := .ParsingKey } :=
    ⟨h.buf, h.pos, fun _ => by simp only; omega, h.base, (fun h => nomatch h),
      (fun _ => ⟨str, op, hk, hpos⟩), (fun h => nomatch h), h.val⟩
  refine sat_modTok.bind fun _ => sat_get fun s0 h0 h1 => ?_
  rw [h1, if_neg (by simp only; omega)]
  refine (expectLoop_sat hG hk hl _ hc rfl ?_).bind fun r => ?_
  · simp only [List.length_drop]; omega
  · refine sat_init fun t' g1 g2 g3 g4 g5 => Sat.pure fun s hs => ⟨hs.1, hs.2.1, ?_⟩
    rw [hs.2.2]
    exact ⟨g2, g3, g4, .inr g1, g5⟩

omit hr in
theorem action_sat {op : STMAction} {a : ElementType} (n : Nat) {t : TokState} (h : Core mask st t)
    (ha : (stm st).action = some (op, a)) :
    Sat (Rest G mask) (Ex G st t) (Scanner.action n mask op a)
      (fun _ => Pre G fun st' t => st' = st ∧ Core0 t) := by
  have idle : inTok t.id = false → t.id ≠ .ParsingKey → Core0 t := by
    intro h1 h2
    have hp : t.pos = 0 := by
      refine h.pos0 ?_
      cases hi : t.id <;> simp [hi, inTok, hasPos] at h1 h2 ⊢
    refine ⟨h.buf, hp, h.base, ?_, ?_⟩
    · cases hi : t.id <;> simp [hi, inTok] at h1 h2 ⊢
    · have := h.val; rw [hp] at this; omega
  have notReads : (∀ isTok arg, ¬ Reads mask st isTok arg) → inTok t.id = false := by
    intro hn
    cases hi : inTok t.id with
    | false => rfl
    | true => obtain ⟨_, _, hr⟩ := h.tok hi; exact absurd hr (hn _ _)
  have exPre : ∀ s, Core0 t → Ex G st t s → Pre G (fun st' t => st' = st ∧ Core0 t) s :=
    fun s h0 hs => ⟨hs.1, hs.2.1, by rw [hs.2.2]; exact h0⟩
  unfold Scanner.action
  cases htd : tokenDefs op with
  | some isTok =>
    have hk : t.id ≠ .ParsingKey := by
      intro hk; obtain ⟨_, _, ⟨_, h1, h2, _⟩, _⟩ := h.key hk; rw [ha] at h1; cases h1
      rw [htd] at h2; cases h2
    simp only
    refine sat_get fun s0 h0 h1 => ?_
    rw [h1]
    by_cases hid : t.id ≠ .ParsingDone
    · rw [if_pos hid]
      by_cases hm : mask.testBit a.toNat = true
      · rw [if_pos hm]
        refine (parseToken_sat hG (⟨op, ha, htd, hm⟩ : Reads mask st isTok a) isTok n h).bind fun r => ?_
        split <;> exact Sat.pure fun _ h => h
      · rw [if_neg hm]
        have h0 : Core0 t := by
          refine idle (notReads ?_) hk
          rintro isTok' arg' ⟨op', g1, -, g3⟩
          rw [ha] at g1; cases g1; exact hm g3
        refine (skipToken_sat hG isTok n h).bind fun r => ?_
        split <;> exact Sat.pure fun s hs => exPre s h0 hs
    · rw [if_neg hid]
      have hid : t.id = .ParsingDone := by simpa using hid
      exact Sat.pure fun s hs => exPre s (idle (by rw [hid]; rfl) hk) hs
  | none =>
    have hno : ∀ isTok arg, ¬ Reads mask st isTok arg := by
      rintro isTok arg ⟨op, h1, h2, -⟩; rw [ha] at h1; cases h1; rw [htd] at h2; cases h2
    simp only
    cases hsd : stringDefs op with
    | some str =>
      have hkeys : Keys st str op := ⟨a, ha, htd, hsd⟩
      have hl : str.length ≤ 15 := by
        cases op <;> simp only [stringDefs, Option.some.injEq, reduceCtorEq] at hsd <;>
          subst hsd <;> decide
      simp only
      refine sat_get fun s0 h0 h1 => ?_
      rw [h1]
      by_cases hid : t.id ≠ .ParsingDone
      · rw [if_pos hid]
        have hpos : t.pos ≤ str.length := by
          by_cases hk : t.id = .ParsingKey
          · obtain ⟨str', op', ⟨_, h1, h2, h3⟩, h4⟩ := h.key hk
            rw [ha] at h1; cases h1; rw [hsd] at h3; cases h3; exact h4
          · rw [(idle (notReads hno) hk).pos]; omega
        refine (expectStr_sat hG hkeys hl h hpos).bind fun r => ?_
        have push : ∀ (x : UChar) {β : Type} {y : M (Scanner ρ) β} {Q : β → Scanner ρ → Prop},
            Sat (Rest G mask) (Pre G fun st' t => st' = st ∧ Core0 t) y Q →
            Sat (Rest G mask) (Pre G fun st' t => st' = st ∧ Core0 t) (Scanner.push x >>= fun _ => y) Q :=
          fun x _ _ _ hy => Sat.bind (Q := fun _ => Pre G fun st' t => st' = st ∧ Core0 t)
            (Sat.modify fun _ h => h) fun _ => hy
        split
        · split
          · exact push _ (push _ (push _ (push _ (Sat.pure fun _ h => h))))
          · exact Sat.pure fun _ h => h
        · exact Sat.pure fun _ h => h
      · rw [if_neg hid]
        have hid : t.id = .ParsingDone := by simpa using hid
        have h0 : Core0 t := idle (by rw [hid]; rfl) (by rw [hid]; simp)
        split <;> exact Sat.pure fun s hs => exPre s h0 hs
    | none =>
      have hk : t.id ≠ .ParsingKey := by
        intro hk; obtain ⟨_, _, ⟨_, h1, h2, h3⟩, _⟩ := h.key hk; rw [ha] at h1; cases h1
        rw [hsd] at h3; cases h3
      have h0 := idle (notReads hno) hk
      exact Sat.bind (Q := fun _ => Ex G st t) (Sat.modify fun _ h => h) fun _ =>
        Sat.pure fun s hs => exPre s h0 hs

omit hr in
theorem transition_sat {sd : Elem} {rt : ElementType} {t : TokState} (h : Core0 t) :
    Sat (Rest G mask) (Ex G st t) (Scanner.transition sd rt) (fun _ => Pre G fun _ t => Core0 t) := by
  have h1 : Core0 { t with id := .Start } := ⟨h.buf, h.pos, h.base, .inl rfl, h.val⟩
  have fin : ∀ {st' : STMState} {s : Scanner ρ}, Ex G st' { t with id := .Start } s →
      Pre G (fun _ t => Core0 t) s := fun hs => ⟨hs.1, by rw [hs.2.2]; exact h1⟩
  have setSt : ∀ ns, Sat (Rest G mask) (Ex G st { t with id := .Start }) (Scanner.setState ns)
      (fun _ => Ex G ns { t with id := .Start }) := fun ns => Sat.modify fun s hs => ⟨hs.1, rfl, hs.2.2⟩
  refine (sat_read hG.control (h.core mask st)).bind fun ch => sat_modTok.bind fun _ => ?_
  split
  · exact (setSt _).bind fun _ => (sat_read hG.skip (h1.core mask _)).bind fun _ => Sat.pure fun s hs => fin hs
  · split
    · exact (setSt _).bind fun _ => Sat.pure fun s hs => fin hs
    · split
      · exact sat_error.bind fun _ => Sat.pure fun s hs => fin hs
      · exact sat_error.bind fun _ => Sat.pure fun s hs => fin hs

omit hr in
theorem body_sat (n : Nat) : Sat (Rest G mask) (Rest G mask) (Scanner.body n mask)
    (fun _ => Pre G fun _ t => Core0 t) := by
  refine sat_ex fun st t h => ?_
  refine sat_get fun s0 h0 h1 => ?_
  rw [h0]
  cases ha : (stm st).action with
  | none =>
    simp only [ha]
    refine transition_sat hG ?_
    have hk : t.id ≠ .ParsingKey := by
      intro hk; obtain ⟨_, _, ⟨_, h1, h2, _⟩, _⟩ := h.key hk; rw [ha] at h1; cases h1
    have hi : inTok t.id = false := by
      cases hi : inTok t.id with
      | false => rfl
      | true => obtain ⟨_, _, ⟨_, h1, _⟩⟩ := h.tok hi; rw [ha] at h1; cases h1
    have hp : t.pos = 0 := by
      refine h.pos0 ?_
      cases hid : t.id <;> simp [hid, inTok, hasPos] at hi hk ⊢
    refine ⟨h.buf, hp, h.base, ?_, ?_⟩
    · cases hid : t.id <;> simp [hid, inTok] at hi hk ⊢
    · have := h.val; rw [hp] at this; omega
  | some oa =>
    obtain ⟨op, a⟩ := oa
    simp only [ha]
    refine (action_sat hG n h ha).bind fun r => sat_ex fun st' t' h' => ?_
    obtain ⟨rfl, h'⟩ := h'
    cases r with
    | none => exact Sat.pure fun s hs => ⟨hs.1, by rw [hs.2.2]; exact h'⟩
    | some rt =>
      simp only
      split
      · split
        · exact Sat.bind (Q := fun _ => Pre G fun _ t => Core0 t)
            (Sat.modify fun s hs => ⟨hs.1, by show Core0 s.tok; rw [hs.2.2]; exact h'⟩)
            fun _ => Sat.pure fun _ h => h
        · exact Sat.pure fun s hs => ⟨hs.1, by rw [hs.2.2]; exact h'⟩
      · exact transition_sat hG h'

omit hr in
theorem itemLoop_sat (n k : Nat) : Sat (Rest G mask) (Rest G mask) (Scanner.itemLoop n mask k)
    (fun _ => Pre G fun _ t => Core0 t) := by
  induction k with
  | zero => intro s hs; exact ⟨by simp, hs⟩
  | succ k ih =>
    unfold Scanner.itemLoop
    refine (body_sat hG n).bind fun r => ?_
    cases r with
    | some t => exact Sat.pure fun _ h => h
    | none => exact ih.pre fun s hs => ⟨hs.1, hs.2.core mask _⟩

omit hr in
/-- A call of `nextItem` has no undefined behaviour. It ends in a state where a call with
any mask may follow; if it is interrupted it may be repeated with the same mask. -/
theorem nextItem_sat (n : Nat) : Sat (Rest G mask) (Rest G mask) (Scanner.nextItem n mask)
    (fun _ => Pre G fun _ t => Core0 t) := itemLoop_sat hG n n

end

end TW
