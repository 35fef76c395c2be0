import Verif.Proofs.MachineInv

/-!
# `nextItem` on a text scanner runs the step machine
-/

set_option linter.unusedSectionVars false

namespace TW

open Spec Mach

variable {ι : Type} [Iter ι] {f : Nat → Byte} {S : Source ι f} {e : Enc} {mask : Nat}

/-- The scanner with the members of `A` and the given source. -/
def lift (A : Cfg) (t : TextScanner ι) (tp : Nat) : Scanner (TextScanner ι) :=
  { state := A.state, error := A.error, src := t, entityMap := A.entityMap, bufAddr := A.bufAddr,
    out := A.out, output := A.output, tokenpos := tp, tok := A.tok }

/-- `tp` is the token position of `A` as far as the source reports positions. -/
def TpOk (S : Source ι f) (e : Enc) (A : Cfg) (tp : Nat) : Prop :=
  (¬ S.wrap → S.bd (A.tokenpos + ulen e f A.tokenpos) → tp = A.tokenpos) ∧ (S.wrap → tp = A.tokenpos % 2 ^ 64)

/-- The scanner `s` is at the configuration `A`; `ld` tells what of the current
character has been fetched. -/
def Held (S : Source ι f) (e : Enc) (ld : Ld) (s : Scanner (TextScanner ι)) (A : Cfg) : Prop :=
  ∃ t tp, s = lift A t tp ∧ TRel S e t ⟨A.src, ld⟩ ∧ TpOk S e A tp

/-- The last character skipped was a UTF-8 character starting at an available byte. -/
def Over (S : Source ι f) (e : Enc) (A : Cfg) : Prop :=
  e = .utf8 ∧ ∃ k0, (∀ i, i ≤ k0 → S.av i) ∧ 128 ≤ f k0 ∧ A.src = k0 + ulen e f k0

/-- All bytes before the current character are available, except that a UTF-8 character
may have been skipped that was not available completely. Between calls. -/
def Past0 (S : Source ι f) (e : Enc) (A : Cfg) : Prop :=
  (∀ i, i < A.src → S.av i) ∨
  (Over S e A ∧ A.state ∈ [STMState.PITAG, .ENTITYLC, .COMSEEKE, .CDATA1] ∧ A.tok.id = .Start)

/-- The same during a call. -/
def Past (S : Source ι f) (e : Enc) (mask : Nat) (A : Cfg) : Prop :=
  Past0 S e A ∨
  (Over S e A ∧ (∃ isTok arg, Skips mask A.state isTok arg) ∧ A.tok.id ≠ .ParsingDone)

theorem Past0.past {A : Cfg} (h : Past0 S e A) : Past S e mask A := .inl h

/-- The scanner is at a configuration where it can be interrupted. -/
structure SRel (S : Source ι f) (e : Enc) (mask : Nat) (s : Scanner (TextScanner ι)) (A : Cfg) :
    Prop where
  held : ∃ ld, Held S e ld s A
  past : Past S e mask A
  inv : Inv mask A

/-- A byte of the current character is not available, and the character is looked at. -/
def Lack (S : Source ι f) (e : Enc) (A : Cfg) : Prop :=
  A.state ≠ .EXIT ∧ ∃ p, p < ulen e f A.src ∧ (¬ S.av (A.src + p) ∨ ¬ S.ic (A.src + p))

/-- Configurations with the same future. -/
def Same (e : Enc) (f : Nat → Byte) (mask : Nat) (A B : Cfg) : Prop :=
  B.src = A.src ∧ step e f mask B = step e f mask A

/-- What is known if the call did not return. -/
def Fails (S : Source ι f) (e : Enc) (mask n : Nat) (A : Cfg) (er : Stop)
    (s : Scanner (TextScanner ι)) : Prop :=
  ∃ m A', Steps e f mask m A A' ∧ (er = .fuel → n ≤ m) ∧ (er ≠ .fuel → S.er er ∧ Lack S e A') ∧
    (er = .eom → ∃ A'', Same e f mask A' A'' ∧ SRel S e mask s A'' ∧
      ∃ p, CRel S s.src.cb A'.src p ∧ ¬ S.av (A'.src + p))

/-- Outcome of code run from configuration `A`. -/
def Sim (S : Source ι f) (e : Enc) (mask n : Nat) (A : Cfg) {α : Type}
    (r : Res α × Scanner (TextScanner ι)) (Q : α → Scanner (TextScanner ι) → Prop) : Prop :=
  match r with
  | (.ok v, s) => Q v s
  | (.stop er, s) => Fails S e mask n A er s

variable {n : Nat} {A B : Cfg} {s : Scanner (TextScanner ι)}

theorem exit_action : (stm .EXIT).action = some (.Return, .Exit) := by decide +kernel

theorem Reads.live {st : STMState} {isTok : Cc → Bool} {arg : ElementType}
    (h : Reads mask st isTok arg) : st ≠ .EXIT := by
  rintro rfl
  obtain ⟨op, h1, h2, -⟩ := h
  rw [exit_action] at h1
  cases h1
  cases h2

theorem Skips.live {st : STMState} {isTok : Cc → Bool} {arg : ElementType}
    (h : Skips mask st isTok arg) : st ≠ .EXIT := by
  rintro rfl
  obtain ⟨op, h1, h2, -⟩ := h
  rw [exit_action] at h1
  cases h1
  cases h2

theorem Keys.live {st : STMState} {str : List Byte} {op : STMAction} (h : Keys st str op) :
    st ≠ .EXIT := by
  rintro rfl
  obtain ⟨arg, h1, -, h2⟩ := h
  rw [exit_action] at h1
  cases h1
  cases h2

/-- The state is not the final one, by the action of the state. -/
macro "live" : tactic => `(tactic| first
  | assumption
  | exact Reads.live (by assumption)
  | exact Skips.live (by assumption)
  | exact Keys.live (by assumption))

theorem Sim.bind {α β : Type} {x : M (Scanner (TextScanner ι)) α}
    {g : α → M (Scanner (TextScanner ι)) β} {Q' : α → Scanner (TextScanner ι) → Prop}
    {Q : β → Scanner (TextScanner ι) → Prop}
    (h : Sim S e mask n A (x s) Q') (h' : ∀ a s', Q' a s' → Sim S e mask n A (g a s') Q) :
    Sim S e mask n A ((x >>= g) s) Q := by
  rw [M.bind_run]
  generalize hx : x s = r at h
  rcases r with ⟨r, c'⟩
  cases r with
  | ok a => exact h' a c' h
  | stop e => exact h

theorem Sim.mono {α : Type} {r : Res α × Scanner (TextScanner ι)}
    {Q Q' : α → Scanner (TextScanner ι) → Prop}
    (h : Sim S e mask n A r Q) (h' : ∀ a s', Q a s' → Q' a s') : Sim S e mask n A r Q' := by
  rcases r with ⟨r, c'⟩
  cases r with
  | ok a => exact h' a c' h
  | stop e => exact h

/-- Continue from a later configuration. -/
theorem Sim.later {α : Type} {r : Res α × Scanner (TextScanner ι)} {n' m : Nat}
    {Q : α → Scanner (TextScanner ι) → Prop} (hs : Steps e f mask m A B) (hn : n' ≤ n + m)
    (h : Sim S e mask n B r Q) : Sim S e mask n' A r Q := by
  rcases r with ⟨r, c'⟩
  cases r with
  | ok a => exact h
  | stop er =>
    obtain ⟨m', A', h1, h2, h3⟩ := h
    exact ⟨m + m', A', hs.trans h1, fun h => by have := h2 h; omega, h3⟩

theorem Sim.pure {α : Type} {a : α} {Q : α → Scanner (TextScanner ι) → Prop} (h : Q a s) :
    Sim S e mask n A ((Pure.pure a : M (Scanner (TextScanner ι)) α) s) Q := h

/-! ## The operations of the reader -/

theorem op_sim {α : Type} {x : M (TextScanner ι) α} {y : M (AR e f) α} {t : TextScanner ι}
    {tp : Nat} {ld : Ld} (hx : SimAt S e x y t ⟨A.src, ld⟩) (hb : TpOk S e A tp)
    (hp : Past S e mask A) (hi : Inv mask A) (hl : A.state ≠ .EXIT := by live) :
    Sim S e mask n A (Scanner.onSrc x (lift A t tp)) fun v s' =>
      ∃ t' a', y ⟨A.src, ld⟩ = (.ok v, a') ∧ TRel S e t' a' ∧ s' = lift A t' tp := by
  unfold Scanner.onSrc
  rcases hx with ⟨v, t', a', h1, h2, h3⟩ | ⟨er, t', h1, h2, p, h3, h4, h5⟩
  · have : x (lift A t tp).src = (.ok v, t') := h1
    rw [this]
    exact ⟨t', a', h2, h3, rfl⟩
  · have : x (lift A t tp).src = (.stop er, t') := h1
    rw [this]
    refine ⟨0, A, .refl A, fun h => absurd h (S.er_ne _ h2), fun _ => ⟨h2, hl, p, h3, h4⟩, fun h => ?_⟩
    obtain ⟨g1, g2, g3⟩ := h5 h
    exact ⟨A, ⟨rfl, rfl⟩, ⟨⟨ld, t', tp, rfl, g1, hb⟩, hp, hi⟩, p, g2, g3⟩

theorem control_sim {ld : Ld} (h : Held S e ld s A) (hp : Past S e mask A) (hi : Inv mask A)
    (hx : A.state ≠ .EXIT := by live) :
    Sim S e mask n A (Scanner.control s) fun c s' => c = cls e f A ∧ Held S e ld.up s' A := by
  obtain ⟨t, tp, rfl, ht, hb⟩ := h
  refine (op_sim ht.control hb hp hi).mono ?_
  rintro c s' ⟨t', a', h1, h2, rfl⟩
  simp only [Reader.control, Prod.mk.injEq, Res.ok.injEq] at h1
  obtain ⟨rfl, rfl⟩ := h1
  exact ⟨rfl, t', tp, rfl, h2, hb⟩

theorem ascii_sim {ld : Ld} (h : Held S e ld s A) (hp : Past S e mask A) (hi : Inv mask A)
    (hx : A.state ≠ .EXIT := by live) :
    Sim S e mask n A (Scanner.asciiM s) fun c s' => c = asc e f A ∧ Held S e ld.up s' A := by
  obtain ⟨t, tp, rfl, ht, hb⟩ := h
  refine (op_sim ht.ascii hb hp hi).mono ?_
  rintro c s' ⟨t', a', h1, h2, rfl⟩
  simp only [Reader.ascii, Prod.mk.injEq, Res.ok.injEq] at h1
  obtain ⟨rfl, rfl⟩ := h1
  exact ⟨rfl, t', tp, rfl, h2, hb⟩

theorem copy_sim {ld : Ld} (h : Held S e ld s A) (hl : ld ≠ .no) (hp : Past S e mask A)
    (hi : Inv mask A) (hx : A.state ≠ .EXIT := by live) :
    Sim S e mask n A (Scanner.copychar s) fun _ s' =>
      Held S e .full s' { A with out := A.out ++ copied e f A.output A.src } := by
  obtain ⟨t, tp, rfl, ht, hb⟩ := h
  unfold Scanner.copychar
  have h1 := op_sim (mask := mask) (n := n) (ht.copychar hl A.output) hb hp hi
  refine Sim.bind (Q' := fun a s' => a = lift A t tp ∧ s' = lift A t tp) ⟨rfl, rfl⟩ ?_
  rintro _ _ ⟨rfl, rfl⟩
  refine Sim.bind h1 ?_
  rintro c s' ⟨t', a', h1, h2, rfl⟩
  have hy : c = copied e f A.output A.src ∧ a' = ⟨A.src, .full⟩ := by
    simp only [Reader.copychar] at h1
    unfold copied
    split at h1 <;> rename_i ho
    · rw [if_pos ho]; simp only [Prod.mk.injEq, Res.ok.injEq] at h1; exact ⟨h1.1.symm, h1.2.symm⟩
    · rw [if_neg ho]; simp only [Prod.mk.injEq, Res.ok.injEq] at h1; exact ⟨h1.1.symm, h1.2.symm⟩
  obtain ⟨rfl, rfl⟩ := hy
  exact ⟨t', tp, rfl, h2, hb⟩

/-- Skipping a character that has been examined never hits the end of a chunk. -/
theorem skip_no_eom {t t' : TextScanner ι} {k : Nat} {ld : Ld} {er : Stop}
    (h : TRel S e t ⟨k, ld⟩) (hl : ld ≠ .no) (hs : TextScanner.skip t = (.stop er, t')) :
    er ≠ .eom := by
  obtain ⟨p, hp, hc, hld, -⟩ := h.cb
  have hpa : CRel.ascFull e f k p := by
    cases ld with
    | no => exact absurd rfl hl
    | asc => exact hld
    | full =>
      simp only [ldOk] at hld
      rw [hld]; exact ascFull_ulen
  have noeom : ∀ m (c c' : CB ι) r q, c.bufpos = q → S.R c.itr (k + q) → CB.skipN m c = (r, c') →
      r ≠ .stop .eom := by
    intro m
    induction m with
    | zero =>
      intro c c' r q _ _ h
      simp only [CB.skipN] at h
      cases h
      simp
    | succ m ih =>
      intro c c' r q hq hR h
      unfold CB.skipN at h
      rcases S.incr_ok _ _ hR with ⟨it', h1, h2⟩ | ⟨er, it', h1, h2, h3, h4⟩
      · have h4 : (CB.incr : M (CB ι) Unit) c = (.ok (), { c with itr := it' }) := by
          simp [CB.incr, h1]
        rw [M.bind_ok h4] at h
        exact ih { c with itr := it', bufpos := c.bufpos + 1 } c' r (q + 1) (by simp [hq]) h2 h
      · have h4 : (CB.incr : M (CB ι) Unit) c = (.stop er, { c with itr := it' }) := by
          simp [CB.incr, h1]
        rw [M.bind_stop h4] at h
        cases h
        simpa using h3
  have upto : ∀ m (c c' : CB ι) r q, c.bufpos = q → S.R c.itr (k + q) → CB.skipUpTo m c = (r, c') →
      r ≠ .stop .eom := by
    intro m c c' r q hq hR h
    unfold CB.skipUpTo at h
    have h2 : (CB.bufposM : M (CB ι) Nat) c = (.ok q, c) := by simp [CB.bufposM, hq]
    rw [M.bind_ok h2] at h
    exact noeom _ c c' r q hq hR h
  have key : ∀ r c', Enc.skip e t.cb = (r, c') → r ≠ .stop .eom := by
    intro r c' h
    cases e with
    | utf8 =>
      simp only [CRel.ascFull] at hpa
      have h1 : Enc.utf8Size t.cb = (.ok (charLengthTab (f k)), t.cb) := by
        unfold Enc.utf8Size
        have h2 : (CB.bufposM : M (CB ι) Nat) t.cb = (.ok p, t.cb) := by simp [CB.bufposM, hc.pos]
        have h3 : (Enc.fetchFirst : M (CB ι) Unit) t.cb = (.ok (), t.cb) := by
          unfold Enc.fetchFirst
          rw [M.bind_ok h2, if_neg (by omega)]
          rfl
        rw [M.bind_ok h3, M.bind_ok (hc.load (by omega))]
        rfl
      simp only [Enc.skip] at h
      rw [M.bind_ok h1] at h
      exact upto _ _ _ _ p hc.pos hc.itr h
    | utf16 be =>
      have h2 : 2 ≤ ulen (.utf16 be) f k := by simp only [ulen]; split <;> omega
      simp only [CRel.ascFull] at hpa
      have h3 := hc.utf16Size (lo := p) (hi := p) be (by omega) (by omega)
      have h' : (Enc.utf16Size be >>= fun n => CB.skipUpTo n) t.cb = (r, c') := h
      rw [M.bind_run] at h'
      generalize Enc.utf16Size be t.cb = rs at h3 h'
      obtain ⟨rs, c2⟩ := rs
      cases rs with
      | ok m =>
        have h4 := h3.2
        rw [show max 2 p = p by omega] at h4
        exact upto _ _ _ _ p h4.pos h4.itr h'
      | stop er =>
        obtain ⟨-, q, h4, h5, -⟩ := h3
        omega
    | ucs2 be => exact upto _ _ _ _ p hc.pos hc.itr h
    | ucs4 be => exact upto _ _ _ _ p hc.pos hc.itr h
    | isolatin page => exact upto _ _ _ _ p hc.pos hc.itr h
  have hcs : t.charset = e := h.cs
  simp only [TextScanner.skip, M.bind_run, TextScanner.onCB, hcs] at hs
  generalize hr : Enc.skip e t.cb = r at hs
  obtain ⟨r, c'⟩ := r
  have := key r c' hr
  cases r with
  | ok a => cases hs
  | stop er' =>
    simp only [Prod.mk.injEq, Res.stop.injEq] at hs
    rw [← hs.1]
    simpa using this

theorem skip_sim {ld : Ld} (h : Held S e ld s A) (hl : ld ≠ .no) (hk : B.src = A.src)
    (hx : B.state ≠ .EXIT := by live) :
    Sim S e mask n B (Scanner.skip s) fun _ s' => Held S e .no s' (adv e f A) := by
  obtain ⟨t, tp, rfl, ht, hb⟩ := h
  unfold Scanner.skip Scanner.onSrc
  rcases ht.skip with ⟨v, t', a', h1, h2, h3⟩ | ⟨er, t', h1, h2, p, h3, h4, h5⟩
  · have h1' : (Reader.skip : M (TextScanner ι) Unit) (lift A t tp).src = (.ok v, t') := h1
    rw [h1']
    simp only [Reader.skip, Prod.mk.injEq] at h2
    obtain ⟨-, rfl⟩ := h2
    exact ⟨t', tp, rfl, h3, hb⟩
  · have h1' : (Reader.skip : M (TextScanner ι) Unit) (lift A t tp).src = (.stop er, t') := h1
    rw [h1']
    have := skip_no_eom ht hl h1
    refine ⟨0, B, .refl B, fun h => absurd h (S.er_ne _ h2), fun _ => ⟨h2, hx, p, ?_, ?_⟩, fun h => absurd h this⟩
    · rw [hk]; exact h3
    · rw [hk]; exact h4

/-! ## Availability -/

theorem Held.loaded {ld : Ld} (h : Held S e ld s A) (hl : ld ≠ .no) :
    S.av A.src ∧ ((∀ i, i < ulen e f A.src → S.av (A.src + i)) ∨
      (e = .utf8 ∧ 128 ≤ f A.src ∧ ld ≠ .full)) := by
  obtain ⟨t, tp, rfl, ht, -⟩ := h
  obtain ⟨p, hp, hc, hld, -⟩ := ht.cb
  have h1 := ulen_pos e f A.src
  simp only at hp hc hld
  cases ld with
  | no => exact absurd rfl hl
  | full =>
    simp only [ldOk] at hld
    subst hld
    exact ⟨by simpa using hc.avail 0 (by omega), .inl fun i hi => hc.avail i hi⟩
  | asc =>
    simp only [ldOk] at hld
    cases e with
    | utf8 =>
      simp only [CRel.ascFull] at hld
      refine ⟨by simpa using hc.avail 0 (by omega), ?_⟩
      by_cases h8 : 128 ≤ f A.src
      · exact .inr ⟨rfl, h8, by simp⟩
      · left
        have : ulen .utf8 f A.src = 1 := by
          simp only [ulen, utf8Len]
          rw [if_pos (by omega)]
        intro i hi
        exact hc.avail i (by omega)
    | _ =>
      simp only [CRel.ascFull] at hld
      subst hld
      exact ⟨by simpa using hc.avail 0 (by omega), .inl fun i hi => hc.avail i hi⟩

theorem Held.all {ld : Ld} (h : Held S e ld s A) (hl : ld ≠ .no)
    (hc : ld = .full ∨ cls e f A ≠ .Undef) : ∀ i, i < ulen e f A.src → S.av (A.src + i) := by
  rcases (h.loaded hl).2 with h1 | ⟨rfl, h2, h3⟩
  · exact h1
  · rcases hc with hc | hc
    · exact absurd hc h3
    · exfalso
      apply hc
      have : ¬ f A.src < 128 := by omega
      simp only [cls, uasc, if_neg this]
      decide

theorem past_adv (h : ∀ i, i < ulen e f A.src → S.av (A.src + i))
    (hk : B.src = A.src + ulen e f A.src) : Past0 S e B := by
  left
  intro i hi
  have h1 := ulen_pos e f A.src
  exact S.av_mono _ _ (by omega) (h (ulen e f A.src - 1) (by omega))

theorem past_same (h : S.av A.src) (hk : B.src = A.src) : Past0 S e B := by
  left
  intro i hi
  exact S.av_mono _ _ (by omega) h

theorem Ld.up_ne (l : Ld) : l.up ≠ .no := by cases l <;> simp [Ld.up]

theorem asc_cls (h : asc e f A ≠ 0) (h5 : asc e f A ≠ 5) : cls e f A ≠ .Undef := by
  unfold asc at h h5
  unfold cls
  have key : ∀ c : Fin 128, c.1 ≠ 0 → c.1 ≠ 5 → controlCharMap c.1 ≠ .Undef := by decide +kernel
  split at h <;> rename_i hlt
  · rw [if_pos hlt] at h5
    exact key ⟨_, hlt⟩ h h5
  · exact absurd rfl h

/-! ## Tokens -/

theorem pushAll_run (cs : List UChar) (A : Cfg) (t : TextScanner ι) (tp : Nat) :
    Scanner.pushAll cs (lift A t tp) = (.ok (), lift (pushes cs A) t tp) := by
  induction cs generalizing A with
  | nil => simp [Scanner.pushAll, pushes]
  | cons c cs ih =>
    unfold Scanner.pushAll
    have h1 : Scanner.push c (lift A t tp) = (.ok (), lift (pushes [c] A) t tp) := by
      simp [Scanner.push, pushes, lift]
    rw [M.bind_ok h1, ih]
    simp [pushes]

theorem push_run (c : UChar) (A : Cfg) (t : TextScanner ι) (tp : Nat) :
    Scanner.push c (lift A t tp) = (.ok (), lift (pushes [c] A) t tp) := by
  simp [Scanner.push, pushes, lift]

theorem fallback_run (A : Cfg) (t : TextScanner ι) (tp : Nat) :
    Scanner.fallbackEntity (lift A t tp) = (.ok (), lift (pushes (fallbackChars A.tok) A) t tp) := by
  unfold Scanner.fallbackEntity
  rw [M.bind_ok (M.get_run _)]
  have hid : (lift A t tp).tok.id = A.tok.id := rfl
  cases h : A.tok.id <;> simp only [hid, h, fallbackChars]
  · simp [pushes]
  · simp [pushes]
  · simp [pushes]
  · exact push_run _ _ _ _
  · rw [M.bind_ok (push_run _ _ _ _), push_run]
    simp [pushes]
  · rw [M.bind_ok (push_run _ _ _ _), M.bind_ok (push_run _ _ _ _)]
    show Scanner.pushAll (List.take A.tok.pos A.tok.buf) _ = _
    rw [pushAll_run]
    simp [pushes]
  · rw [M.bind_ok (push_run _ _ _ _)]
    show Scanner.pushAll (List.take A.tok.pos A.tok.buf) _ = _
    rw [pushAll_run]
    simp [pushes]
  · simp [pushes]

theorem pos_lift (A : Cfg) (t : TextScanner ι) (tp : Nat) : (lift A t tp).tok = A.tok := rfl

theorem incPos_run (A : Cfg) (t : TextScanner ι) (tp : Nat) : Scanner.incPos (lift A t tp)
    = (.ok (), lift (tokTo (fun t => { t with pos := t.pos + 1 }) A) t tp) := rfl

theorem modTok_run (g : TokState → TokState) (A : Cfg) (t : TextScanner ι) (tp : Nat) :
    Scanner.modTok g (lift A t tp) = (.ok (), lift (tokTo g A) t tp) := rfl

theorem tokInit_run (id : TokId) (A : Cfg) (t : TextScanner ι) (tp : Nat) :
    Scanner.tokInit id (lift A t tp) = (.ok (), lift (initTok id A) t tp) := rfl

theorem setId_run (id : TokId) (A : Cfg) (t : TextScanner ι) (tp : Nat) :
    Scanner.setId id (lift A t tp) = (.ok (), lift (idTo id A) t tp) := rfl

theorem store_run (i : Nat) (ch : Byte) (A : Cfg) (t : TextScanner ι) (tp : Nat)
    (h : A.tok.buf.length = 16) (hi : i ≤ 15) :
    Scanner.storeTok i ch (lift A t tp)
      = (.ok (), lift (tokTo (fun t => { t with buf := t.buf.set i ch }) A) t tp) := by
  unfold Scanner.storeTok
  have : i < (lift A t tp).tok.buf.length := by show i < A.tok.buf.length; omega
  rw [if_pos this]
  rfl

theorem pushEntity_run (name : List Byte) (A : Cfg) (t : TextScanner ι) (tp : Nat) :
    Scanner.pushEntity name (lift A t tp) = match entityChar A name with
      | some c => (.ok true, lift (pushes [c] A) t tp)
      | none => (.ok false, lift { A with error := .ErrUndefinedCharacterEntity } t tp) := by
  unfold Scanner.pushEntity entityChar
  cases h : Scanner.predefinedEntity name with
  | some c =>
    simp only
    rw [M.bind_ok (push_run _ _ _ _)]
    rfl
  | none =>
    simp only
    rw [M.bind_ok (M.get_run _)]
    have hm : (lift A t tp).entityMap = A.entityMap := rfl
    cases hem : A.entityMap with
    | none =>
      rw [hm, hem]
      simp only
      exact congrArg (fun x => ((Res.ok false : Res Bool), x)) (by simp [lift, hem])
    | some m =>
      have hb : (lift A t tp).bufAddr = A.bufAddr := rfl
      simp only [hm, hem, hb]
      cases hf : m.find? (fun x => decide (x.1 = A.bufAddr)) with
      | none => exact congrArg (fun x => ((Res.ok false : Res Bool), x)) (by simp [lift, hem])
      | some x =>
        simp only [Option.map_some]
        rw [M.bind_ok (push_run _ _ _ _)]
        rfl

/-- `tokstate.init(id)` on the scanner. -/
def initS (id : TokId) (s : Scanner (TextScanner ι)) : Scanner (TextScanner ι) :=
  { s with tok := s.tok.init id }

/-- An entity has been read, `s` is the scanner before the token state is reset. -/
def EntOk (S : Source ι f) (e : Enc) (mask : Nat) (A : Cfg) (s : Scanner (TextScanner ι)) : Prop :=
  ∃ m B, Steps e f mask (m + 1) A B ∧ SRel S e mask (initS .ParsingToken s) B ∧
    B.tok.id = .ParsingToken ∧ B.state = A.state

/-- An entity has been rejected. -/
def EntErr (S : Source ι f) (e : Enc) (mask : Nat) (A : Cfg) (s : Scanner (TextScanner ι)) : Prop :=
  ∃ m A1 B, Steps e f mask m A A1 ∧ step e f mask A1 = (some .ErrorOccurred, B) ∧
    SRel S e mask (initS .Start s) B ∧ Past0 S e B

/-- Both cases. -/
def EntQ (S : Source ι f) (e : Enc) (mask : Nat) (A : Cfg) (r : Bool) (s : Scanner (TextScanner ι)) :
    Prop := if r then EntOk S e mask A s else EntErr S e mask A s

theorem EntQ.later {m : Nat} {r : Bool} (h : Steps e f mask m A B) (hst : B.state = A.state)
    (hq : EntQ S e mask B r s) : EntQ S e mask A r s := by
  cases r with
  | true =>
    obtain ⟨m', C, h1, h2, h3, h4⟩ := hq
    exact ⟨m + m', C, h.trans h1, h2, h3, by rw [h4, hst]⟩
  | false =>
    obtain ⟨m', C, D, h1, h2, h3⟩ := hq
    exact ⟨m + m', C, D, h.trans h1, h2, h3⟩

theorem step_reads {isTok : Cc → Bool} {arg : ElementType} (hr : Reads mask A.state isTok arg)
    (hd : A.tok.id ≠ .ParsingDone) : step e f mask A = tokStep e f isTok A := by
  obtain ⟨op, h1, h2, h3⟩ := hr
  unfold step
  simp only [h1, h2, h3, if_true, if_neg hd]

theorem numericLoop_sim {isTok : Cc → Bool} {arg : ElementType} (k : Nat) :
    ∀ (A : Cfg) (s : Scanner (TextScanner ι)) (ld : Ld), Held S e ld s A → Past S e mask A →
      Inv mask A → Reads mask A.state isTok arg → A.tok.id = .ParsingNumericBaseEntity →
      k = 16 - A.tok.pos →
      Sim S e mask n A (Scanner.numericLoop k s) (EntQ S e mask A) := by
  induction k with
  | zero =>
    intro A s ld hh hp hi hr hid hk
    have := hi.pos
    omega
  | succ k ih =>
    intro A s ld hh hp hi hr hid hk
    have hstep : step e f mask A = _ := step_reads hr (by rw [hid]; simp)
    unfold tokStep at hstep
    simp only [hid] at hstep
    unfold Scanner.numericLoop
    refine Sim.bind (ascii_sim hh hp hi) ?_
    rintro ch s1 ⟨rfl, h1⟩
    have hav := (h1.loaded (Ld.up_ne _)).1
    obtain ⟨t, tp, rfl, ht, hb⟩ := id h1
    refine Sim.bind (Q' := fun a s' => a = lift A t tp ∧ s' = lift A t tp) ⟨rfl, rfl⟩ ?_
    rintro _ _ ⟨rfl, rfl⟩
    by_cases h59 : asc e f A = 59
    · rw [if_pos h59] at hstep ⊢
      rw [pos_lift]
      by_cases hv : 0xFFFFFFFF < A.tok.value
      · rw [if_pos hv] at hstep ⊢
        rw [M.bind_ok (store_run _ _ _ _ _ hi.buf hi.pos)]
        rw [M.bind_ok (incPos_run _ _ _), M.bind_ok (fallback_run _ _ _)]
        refine ⟨0, _, .one hstep, ⟨⟨_, t, tp, ?_, ht, hb⟩, .inl (past_same hav rfl), step_inv hi hstep⟩,
          rfl, rfl⟩
        rw [h59]; rfl
      · rw [if_neg hv] at hstep ⊢
        rw [M.bind_ok (push_run _ _ _ _)]
        rw [M.bind_ok (tokInit_run _ _ _ _)]
        have hh2 : Held S e ld.up (lift (initTok .ParsingToken (pushes [A.tok.value % 2 ^ 32] A)) t tp)
          (initTok .ParsingToken (pushes [A.tok.value % 2 ^ 32] A)) := ⟨t, tp, rfl, ht, hb⟩
        refine Sim.bind (skip_sim hh2 (Ld.up_ne _) rfl) ?_
        rintro _ s2 h2
        obtain ⟨t2, tp2, rfl, ht2, hb2⟩ := h2
        refine ⟨0, _, .one hstep, ⟨⟨_, t2, tp2, rfl, ht2, hb2⟩,
          .inl (past_adv (h1.all (Ld.up_ne _) (.inr (asc_cls (by omega) (by omega)))) rfl),
          step_inv hi hstep⟩, rfl, rfl⟩
    · rw [if_neg h59] at hstep ⊢
      rw [pos_lift]
      by_cases hx : A.tok.base ≤ hexVal (asc e f A)
      · rw [if_pos hx] at hstep ⊢
        rw [M.bind_ok (fallback_run _ _ _)]
        exact ⟨0, _, .one hstep, ⟨⟨_, t, tp, rfl, ht, hb⟩, .inl (past_same hav rfl), step_inv hi hstep⟩,
          rfl, rfl⟩
      · rw [if_neg hx] at hstep ⊢
        rw [M.bind_ok (store_run _ _ _ _ _ hi.buf hi.pos)]
        rw [M.bind_ok (incPos_run _ _ _), M.bind_ok (modTok_run _ _ _ _)]
        have hne : asc e f A ≠ 0 ∧ asc e f A ≠ 5 := by
          have h16 : hexVal 0 = 255 ∧ hexVal 5 = 255 := by decide
          have := hi.base
          constructor <;> intro h0 <;> rw [h0] at hx <;> omega
        have hall := h1.all (Ld.up_ne _) (.inr (asc_cls hne.1 hne.2))
        have hh2 : Held S e ld.up (lift (tokTo (fun t =>
            { t with value := (t.value * t.base + hexVal (asc e f A)) % 2 ^ 64 })
            (store (asc e f A) A)) t tp) (tokTo (fun t =>
            { t with value := (t.value * t.base + hexVal (asc e f A)) % 2 ^ 64 })
            (store (asc e f A) A)) := ⟨t, tp, rfl, ht, hb⟩
        refine Sim.bind (skip_sim hh2 (Ld.up_ne _) rfl) ?_
        rintro _ s2 h2
        have hp2 : Past0 S e (adv e f (tokTo (fun t =>
            { t with value := (t.value * t.base + hexVal (asc e f A)) % 2 ^ 64 })
            (store (asc e f A) A))) := past_adv (A := A) hall rfl
        generalize hA1 : adv e f (tokTo (fun t =>
            { t with value := (t.value * t.base + hexVal (asc e f A)) % 2 ^ 64 })
            (store (asc e f A) A)) = A1 at hstep h2 hp2
        have hpos1 : A1.tok.pos = A.tok.pos + 1 := by rw [← hA1]; rfl
        have hid1 : A1.tok.id = .ParsingNumericBaseEntity := by rw [← hA1]; exact hid
        have hst1 : A1.state = A.state := by rw [← hA1]; rfl
        obtain ⟨t2, tp2, rfl, ht2, hb2⟩ := id h2
        cases k with
        | zero =>
          rw [if_pos (by omega)] at hstep
          unfold Scanner.numericLoop
          rw [M.bind_ok (fallback_run _ _ _)]
          exact ⟨0, _, .one hstep, ⟨⟨_, t2, tp2, rfl, ht2, hb2⟩, .inl (.inl (by
            rcases hp2 with h | ⟨h, h3, -⟩
            · exact h
            · intro i hi'
              rw [← hA1] at hi'
              have h1 := ulen_pos e f A.src
              refine S.av_mono _ _ ?_ (hall (ulen e f A.src - 1) (by omega))
              have : (adv e f (tokTo (fun t =>
                { t with value := (t.value * t.base + hexVal (asc e f A)) % 2 ^ 64 })
                (store (asc e f A) A))).src = A.src + ulen e f A.src := rfl
              have hi2 : i < A.src + ulen e f A.src := hi'
              omega)), step_inv hi hstep⟩, rfl, hst1⟩
        | succ k =>
          rw [if_neg (by omega)] at hstep
          have hi1 := step_inv hi hstep
          have := ih A1 _ _ h2 hp2.past hi1 (by rw [hst1]; exact hr) hid1 (by omega)
          exact (this.later (n := n) (.one hstep) (by omega)).mono fun r s' hq => hq.later (.one hstep) hst1

theorem idTo_self {id : TokId} (h : A.tok.id = id) : idTo id A = A := by
  subst h; rfl

section

variable {isTok : Cc → Bool} {arg : ElementType} {A0 : Cfg} {ld : Ld}

theorem parseNumericBase_sim (hh : Held S e ld s A0) (hA : A = idTo .ParsingNumericBaseEntity A0)
    (hp : Past S e mask A) (hi : Inv mask A) (hr : Reads mask A.state isTok arg) :
    Sim S e mask n A (Scanner.parseNumericBaseEntity s) (EntQ S e mask A) := by
  obtain ⟨t, tp, rfl, ht, hb⟩ := hh
  subst hA
  unfold Scanner.parseNumericBaseEntity
  rw [M.bind_ok (setId_run _ _ _ _), M.bind_ok (M.get_run _), pos_lift]
  have hpos := hi.pos
  exact numericLoop_sim _ _ _ ld ⟨t, tp, rfl, ht, hb⟩ hp hi hr rfl rfl

theorem parseNumeric_sim (hh : Held S e ld s A0) (hA : A = idTo .ParsingNumericEntity A0)
    (hp : Past S e mask A) (hi : Inv mask A) (hr : Reads mask A.state isTok arg) :
    Sim S e mask n A (Scanner.parseNumericEntity s) (EntQ S e mask A) := by
  obtain ⟨t, tp, rfl, ht, hb⟩ := hh
  have hid : A.tok.id = .ParsingNumericEntity := by rw [hA]; rfl
  have hstep : step e f mask A = _ := step_reads hr (by rw [hid]; simp)
  unfold tokStep at hstep
  simp only [hid] at hstep
  unfold Scanner.parseNumericEntity
  rw [M.bind_ok (setId_run _ _ _ _), ← hA]
  have hh : Held S e ld (lift A t tp) A := ⟨t, tp, rfl, by rw [hA]; exact ht, by rw [hA]; exact hb⟩
  refine Sim.bind (ascii_sim hh hp hi) ?_
  rintro ch s1 ⟨rfl, h1⟩
  have hav := (h1.loaded (Ld.up_ne _)).1
  obtain ⟨t, tp, rfl, ht, hb⟩ := id h1
  by_cases hx : asc e f A = 120
  · rw [if_pos hx] at hstep ⊢
    rw [M.bind_ok (modTok_run _ _ _ _)]
    have hh2 : Held S e ld.up (lift (tokTo (fun t => { t with base := 16 }) A) t tp)
      (tokTo (fun t => { t with base := 16 }) A) := ⟨t, tp, rfl, ht, hb⟩
    refine Sim.bind (skip_sim hh2 (Ld.up_ne _) rfl) ?_
    rintro _ s2 h2
    have := parseNumericBase_sim (n := n) (mask := mask) h2 rfl
      (past_adv (A := A) (h1.all (Ld.up_ne _) (.inr (asc_cls (by omega) (by omega)))) rfl).past
      (step_inv hi hstep) hr
    exact (this.later (n := n) (.one hstep) (by omega)).mono fun r s' hq => hq.later (.one hstep) rfl
  · rw [if_neg hx] at hstep ⊢
    rw [M.bind_ok (modTok_run _ _ _ _)]
    have hh2 : Held S e ld.up (lift (tokTo (fun t => { t with base := 10 }) A) t tp)
      (tokTo (fun t => { t with base := 10 }) A) := ⟨t, tp, rfl, ht, hb⟩
    have := parseNumericBase_sim (n := n) (mask := mask) hh2 rfl
      (.inl (past_same (A := A) hav rfl)) (step_inv hi hstep) hr
    exact (this.later (n := n) (.one hstep) (by omega)).mono fun r s' hq => hq.later (.one hstep) rfl

theorem namedLoop_sim (k : Nat) :
    ∀ (A : Cfg) (s : Scanner (TextScanner ι)) (ld : Ld), Held S e ld s A → ld ≠ .no →
      Past S e mask A → Inv mask A → Reads mask A.state isTok arg → A.tok.id = .ParsingNamedEntity →
      k = 15 - A.tok.pos →
      Sim S e mask n A (Scanner.namedLoop k (asc e f A) s) fun ch s' => ∃ m B ld',
        Steps e f mask m A B ∧ Held S e ld' s' B ∧ ld' ≠ .no ∧ Past S e mask B ∧ Inv mask B ∧
        ch = asc e f B ∧ B.tok.id = .ParsingNamedEntity ∧ B.state = A.state ∧
        ¬ (B.tok.pos < 15 ∧ asc e f B ≠ 59 ∧ cls e f B = .Any) := by
  induction k with
  | zero =>
    intro A s ld hh hl hp hi hr hid hk
    exact ⟨0, A, ld, .refl A, hh, hl, hp, hi, rfl, hid, rfl, fun h => by omega⟩
  | succ k ih =>
    intro A s ld hh hl hp hi hr hid hk
    have hstep : step e f mask A = _ := step_reads hr (by rw [hid]; simp)
    unfold tokStep at hstep
    simp only [hid] at hstep
    unfold Scanner.namedLoop
    by_cases h59 : asc e f A = 59
    · rw [if_neg (by simp [h59])]
      exact ⟨0, A, ld, .refl A, hh, hl, hp, hi, rfl, hid, rfl, fun h => h.2.1 h59⟩
    · rw [if_pos h59]
      refine Sim.bind (control_sim hh hp hi) ?_
      rintro c s1 ⟨rfl, h1⟩
      by_cases hc : cls e f A = .Any
      · rw [if_pos hc]
        rw [if_pos ⟨by omega, h59, hc⟩] at hstep
        obtain ⟨t, tp, rfl, ht, hb⟩ := id h1
        rw [M.bind_ok (M.get_run _), pos_lift, M.bind_ok (store_run _ _ _ _ _ hi.buf hi.pos)]
        have hh2 : Held S e ld.up (lift (tokTo (fun t => { t with buf := t.buf.set A.tok.pos (asc e f A) }) A) t tp)
          (tokTo (fun t => { t with buf := t.buf.set A.tok.pos (asc e f A) }) A) := ⟨t, tp, rfl, ht, hb⟩
        refine Sim.bind (skip_sim hh2 (Ld.up_ne _) rfl) ?_
        rintro _ s2 h2
        obtain ⟨t2, tp2, rfl, ht2, hb2⟩ := id h2
        rw [M.bind_ok (incPos_run _ _ _)]
        have hi1 := step_inv hi hstep
        have hp1 : Past S e mask (adv e f (store (asc e f A) A)) :=
          (past_adv (A := A) (h1.all (Ld.up_ne _) (.inr (by rw [hc]; simp))) rfl).past
        have hh3 : Held S e .no (lift (tokTo (fun t => { t with pos := t.pos + 1 })
          (adv e f (tokTo (fun t => { t with buf := t.buf.set A.tok.pos (asc e f A) }) A))) t2 tp2)
          (adv e f (store (asc e f A) A)) := ⟨t2, tp2, rfl, ht2, hb2⟩
        have hpos1 : (adv e f (store (asc e f A) A)).tok.pos = A.tok.pos + 1 := rfl
        have hst1 : (adv e f (store (asc e f A) A)).state = A.state := rfl
        have hid1 : (adv e f (store (asc e f A) A)).tok.id = A.tok.id := rfl
        generalize adv e f (store (asc e f A) A) = A1 at *
        refine Sim.later (n := n) (.one hstep) (by omega) ?_
        refine Sim.bind (ascii_sim hh3 hp1 hi1 (by rw [hst1]; live)) ?_
        rintro _ s3 ⟨rfl, h3⟩
        refine (ih A1 s3 _ h3 (Ld.up_ne _) hp1 hi1 (by rw [hst1]; exact hr) (by rw [hid1, hid])
          (by omega)).mono ?_
        rintro ch s' ⟨m, B, ld', g1, g2, g3, g4, g5, g6, g7, g8, g9⟩
        exact ⟨m + 1, B, ld', .cons hstep g1, g2, g3, g4, g5, g6, g7, by rw [g8, hst1], g9⟩
      · rw [if_neg hc]
        exact ⟨0, A, _, .refl A, h1, Ld.up_ne _, hp, hi, rfl, hid, rfl, fun h => hc h.2.2⟩

theorem parseNamed_sim (hh : Held S e ld s A0) (hA : A = idTo .ParsingNamedEntity A0)
    (hp : Past S e mask A) (hi : Inv mask A) (hr : Reads mask A.state isTok arg) :
    Sim S e mask n A (Scanner.parseNamedEntity s) (EntQ S e mask A) := by
  obtain ⟨t, tp, rfl, ht, hb⟩ := hh
  have hid : A.tok.id = .ParsingNamedEntity := by rw [hA]; rfl
  unfold Scanner.parseNamedEntity
  rw [M.bind_ok (setId_run _ _ _ _), ← hA]
  have hh : Held S e ld (lift A t tp) A := ⟨t, tp, rfl, by rw [hA]; exact ht, by rw [hA]; exact hb⟩
  refine Sim.bind (ascii_sim hh hp hi) ?_
  rintro ch s1 ⟨rfl, h1⟩
  obtain ⟨t1, tp1, rfl, ht1, hb1⟩ := id h1
  rw [M.bind_ok (M.get_run _), pos_lift]
  refine Sim.bind (namedLoop_sim _ A _ _ h1 (Ld.up_ne _) hp hi hr hid rfl) ?_
  rintro _ s2 ⟨m, B, ld', g1, g2, g3, g4, g5, rfl, g7, g8, g9⟩
  have hrB : Reads mask B.state isTok arg := by rw [g8]; exact hr
  have hstep : step e f mask B = _ := step_reads hrB (by rw [g7]; simp)
  unfold tokStep at hstep
  simp only [g7, if_neg g9] at hstep
  have hav := (g2.loaded g3).1
  obtain ⟨t2, tp2, rfl, ht2, hb2⟩ := id g2
  suffices hs : ∀ x : Res Bool × Scanner (TextScanner ι), Sim S e mask n B x (EntQ S e mask B) →
      Sim S e mask n A x (EntQ S e mask A) by
    apply hs
    clear hs
    by_cases h59 : asc e f B = 59
    · rw [if_pos h59] at hstep ⊢
      rw [M.bind_ok (M.get_run _), pos_lift, M.bind_ok (store_run _ _ _ _ _ g5.buf g5.pos),
        M.bind_ok (M.get_run _), pos_lift]
      have hrun := pushEntity_run ((B.tok.buf.set B.tok.pos 0).takeWhile (· ≠ 0))
        (tokTo (fun t => { t with buf := t.buf.set B.tok.pos 0 }) B) t2 tp2
      have hent : entityChar (tokTo (fun t => { t with buf := t.buf.set B.tok.pos 0 }) B)
        ((B.tok.buf.set B.tok.pos 0).takeWhile (· ≠ 0)) = entityChar B
        ((B.tok.buf.set B.tok.pos 0).takeWhile (· ≠ 0)) := rfl
      rw [hent] at hrun
      cases hc : entityChar B ((B.tok.buf.set B.tok.pos 0).takeWhile (· ≠ 0)) with
      | some c =>
        simp only [hc] at hstep hrun
        rw [show (tokTo (fun t => { t with buf := t.buf.set B.tok.pos 0 }) B).tok.buf
          = B.tok.buf.set B.tok.pos 0 from rfl, M.bind_ok hrun, if_pos rfl,
          M.bind_ok (tokInit_run _ _ _ _)]
        have hh2 : Held S e ld' (lift (initTok .ParsingToken (pushes [c]
            (tokTo (fun t => { t with buf := t.buf.set B.tok.pos 0 }) B))) t2 tp2)
            (initTok .ParsingToken (pushes [c]
            (tokTo (fun t => { t with buf := t.buf.set B.tok.pos 0 }) B))) := ⟨t2, tp2, rfl, ht2, hb2⟩
        refine Sim.bind (skip_sim hh2 g3 rfl) ?_
        rintro _ s3 ⟨t3, tp3, rfl, ht3, hb3⟩
        exact ⟨0, _, .one hstep, ⟨⟨_, t3, tp3, rfl, ht3, hb3⟩,
          .inl (past_adv (g2.all g3 (.inr (asc_cls (by omega) (by omega)))) rfl),
          step_inv g5 hstep⟩, rfl, rfl⟩
      | none =>
        simp only [hc] at hstep hrun
        rw [show (tokTo (fun t => { t with buf := t.buf.set B.tok.pos 0 }) B).tok.buf
          = B.tok.buf.set B.tok.pos 0 from rfl, M.bind_ok hrun, if_neg (by simp)]
        exact ⟨0, B, _, .refl B, hstep, ⟨⟨_, t2, tp2, rfl, ht2, hb2⟩, .inl (past_same hav rfl),
          (step_ret g5 hstep).inv mask⟩, past_same hav rfl⟩
    · rw [if_neg h59] at hstep ⊢
      rw [M.bind_ok (fallback_run _ _ _)]
      exact ⟨0, _, .one hstep, ⟨⟨_, t2, tp2, rfl, ht2, hb2⟩, .inl (past_same hav rfl),
        step_inv g5 hstep⟩, rfl, rfl⟩
  intro x hx
  exact (hx.later g1 (by omega)).mono fun r s' hq => hq.later g1 g8

theorem parseEntity_sim (hh : Held S e ld s A0) (hA : A = idTo .ParsingEntity A0)
    (hp : Past S e mask A) (hi : Inv mask A) (hr : Reads mask A.state isTok arg) :
    Sim S e mask n A (Scanner.parseEntity s) (EntQ S e mask A) := by
  obtain ⟨t, tp, rfl, ht, hb⟩ := hh
  have hid : A.tok.id = .ParsingEntity := by rw [hA]; rfl
  have hstep : step e f mask A = _ := step_reads hr (by rw [hid]; simp)
  unfold tokStep at hstep
  simp only [hid] at hstep
  unfold Scanner.parseEntity
  rw [M.bind_ok (setId_run _ _ _ _), ← hA]
  have hh : Held S e ld (lift A t tp) A := ⟨t, tp, rfl, by rw [hA]; exact ht, by rw [hA]; exact hb⟩
  refine Sim.bind (ascii_sim hh hp hi) ?_
  rintro ch s1 ⟨rfl, h1⟩
  have hav := (h1.loaded (Ld.up_ne _)).1
  by_cases hx : asc e f A = 35
  · rw [if_pos hx] at hstep ⊢
    refine Sim.bind (skip_sim h1 (Ld.up_ne _) rfl) ?_
    rintro _ s2 h2
    have := parseNumeric_sim (n := n) (mask := mask) h2 rfl
      (past_adv (A := A) (h1.all (Ld.up_ne _) (.inr (asc_cls (by omega) (by omega)))) rfl).past
      (step_inv hi hstep) hr
    exact (this.later (n := n) (.one hstep) (by omega)).mono fun r s' hq => hq.later (.one hstep) rfl
  · rw [if_neg hx] at hstep ⊢
    have := parseNamed_sim (n := n) (mask := mask) h1 rfl
      (.inl (past_same (A := A) hav rfl)) (step_inv hi hstep) hr
    exact (this.later (n := n) (.one hstep) (by omega)).mono fun r s' hq => hq.later (.one hstep) rfl

theorem initS_initS (i j : TokId) (s : Scanner (TextScanner ι)) : initS i (initS j s) = initS i s := rfl

theorem recover_sim (hh : Held S e ld s A) (hp : Past S e mask A) (hi : Inv mask A)
    (hr : Reads mask A.state isTok arg) (h1 : inTok A.tok.id = true) (h2 : A.tok.id ≠ .ParsingToken) :
    Sim S e mask n A (Scanner.parseTokenRecover s) fun r s' =>
      if r then ∃ m B, Steps e f mask (m + 1) A B ∧ SRel S e mask s' B ∧
        B.tok.id = .ParsingToken ∧ B.state = A.state
      else EntErr S e mask A s' := by
  have fin : ∀ (x : M (Scanner (TextScanner ι)) Bool), Sim S e mask n A (x s) (EntQ S e mask A) →
      Sim S e mask n A ((x >>= fun rt => Scanner.tokInit .ParsingToken >>= fun _ => pure rt) s) fun r s' =>
      if r then ∃ m B, Steps e f mask (m + 1) A B ∧ SRel S e mask s' B ∧
        B.tok.id = .ParsingToken ∧ B.state = A.state
      else EntErr S e mask A s' := by
    intro x hx
    refine Sim.bind hx ?_
    intro r s' hq
    have hrun : Scanner.tokInit .ParsingToken s' = (.ok (), initS .ParsingToken s') := rfl
    rw [M.bind_ok hrun]
    cases r with
    | true => exact hq
    | false => exact hq
  have hid : s.tok.id = A.tok.id := by obtain ⟨t, tp, rfl, -⟩ := hh; rfl
  unfold Scanner.parseTokenRecover
  rw [M.bind_ok (M.get_run _), hid]
  cases h : A.tok.id <;> simp only [h, inTok] at h1 h2 ⊢
  · exact absurd h1 (by simp)
  · exact absurd h1 (by simp)
  · exact absurd h1 (by simp)
  · exact fin _ (parseEntity_sim hh (idTo_self h).symm hp hi hr)
  · exact fin _ (parseNumeric_sim hh (idTo_self h).symm hp hi hr)
  · exact fin _ (parseNumericBase_sim hh (idTo_self h).symm hp hi hr)
  · exact fin _ (parseNamed_sim hh (idTo_self h).symm hp hi hr)
  · exact absurd rfl h2

theorem tokenChar_sim (hh : Held S e ld s A) (hp : Past S e mask A)
    (hi : Inv mask A) (hx : A.state ≠ .EXIT := by live) :
    Sim S e mask n A (Scanner.tokenChar s) fun _ s' => ∃ ld', ld' ≠ .no ∧
      Held S e ld' s' (charStep e f A) ∧ ∀ i, i < ulen e f A.src → S.av (A.src + i) := by
  unfold Scanner.tokenChar charStep
  refine Sim.bind (ascii_sim hh hp hi) ?_
  rintro _ s1 ⟨rfl, h1⟩
  have hcopy : Sim S e mask n A ((Scanner.copychar >>= fun _ =>
      Scanner.modTok fun t => { t with eolCR := false }) s1) fun _ s' => ∃ ld', ld' ≠ .no ∧
      Held S e ld' s' (tokTo (fun t => { t with eolCR := false })
        { A with out := A.out ++ copied e f A.output A.src }) ∧
      ∀ i, i < ulen e f A.src → S.av (A.src + i) := by
    refine Sim.bind (copy_sim h1 (Ld.up_ne _) hp hi) ?_
    rintro _ s2 h2
    have hall := h2.all (by simp) (.inl rfl)
    obtain ⟨t, tp, rfl, ht, hb⟩ := h2
    rw [modTok_run]
    exact ⟨.full, by simp, ⟨t, tp, rfl, ht, hb⟩, hall⟩
  by_cases h13 : asc e f A = 13
  · rw [if_pos h13, if_pos (by omega), if_pos h13]
    have hall := h1.all (Ld.up_ne _) (.inr (asc_cls (by omega) (by omega)))
    obtain ⟨t, tp, rfl, ht, hb⟩ := h1
    rw [M.bind_ok (push_run _ _ _ _), modTok_run]
    exact ⟨_, Ld.up_ne _, ⟨t, tp, rfl, ht, hb⟩, hall⟩
  · rw [if_neg h13, if_neg h13]
    by_cases h10 : asc e f A = 10
    · rw [if_pos h10, if_pos (by omega), if_pos h10]
      have hall := h1.all (Ld.up_ne _) (.inr (asc_cls (by omega) (by omega)))
      obtain ⟨t, tp, rfl, ht, hb⟩ := h1
      rw [M.bind_ok (M.get_run _), pos_lift]
      cases hcr : A.tok.eolCR with
      | true =>
        simp only [if_true]
        exact ⟨_, Ld.up_ne _, ⟨t, tp, rfl, ht, hb⟩, hall⟩
      | false =>
        simp only [Bool.false_eq_true, if_false]
        rw [M.bind_ok (push_run _ _ _ _), modTok_run]
        exact ⟨_, Ld.up_ne _, ⟨t, tp, rfl, ht, hb⟩, hall⟩
    · rw [if_neg h10, if_neg h10]
      split <;> exact hcopy

/-- Result of `parseToken`. -/
def TokQ (S : Source ι f) (e : Enc) (mask : Nat) (A : Cfg) (r : Bool) (s : Scanner (TextScanner ι)) :
    Prop :=
  if r then ∃ m B, Steps e f mask m A B ∧ SRel S e mask s B ∧ B.tok.id = .ParsingDone ∧
    B.state = A.state
  else ∃ m A1 B, Steps e f mask m A A1 ∧ step e f mask A1 = (some .ErrorOccurred, B) ∧
    SRel S e mask s B ∧ Past0 S e B

end

end TW
