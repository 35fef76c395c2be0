import Verif.Proofs.Session
import Verif.Proofs.Text

/-!
# What the machine reads without an error

`Auto` is the automaton behind the scanner, on the ASCII values of the characters, with the end of the text as a null at
the end. A run of the machine to the exit item without an error is a run of this automaton.
-/

namespace TW.Mach

open Spec

/-- A transition of the state machine on the first character. -/
def Move (q : STMState) (as : List Byte) (q' : STMState) (as' : List Byte) : Prop :=
  (∃ b, as = b :: as' ∧ (stm q).next (controlCharMap b) = some q') ∨
  (as' = as ∧ (stm q).fallback = some q' ∧ ∃ b, as.head? = some b ∧ (stm q).next (controlCharMap b) = none)

/-- The items of a key word. -/
def keyTypes (op : STMAction) : List ElementType := if op = .ExpectIdentifierXML then [.HeaderStart] else []

/-- A character of a token. -/
def inToken (isTok : Cc → Bool) (a : Byte) : Prop := isTok (controlCharMap a) = true ∨ controlCharMap a = .Amp

/-- The automaton: the characters read and the types of the items. -/
inductive Auto : STMState → List Byte → List ElementType → Prop where
  | exit : Auto .EXIT [] [.Exit]
  | plain {q q' : STMState} {as as' : List Byte} {ts : List ElementType} : (stm q).action = none → Move q as q' as' →
      Auto q' as' ts → Auto q as ts
  | tok {q q' : STMState} {t as as' : List Byte} {ts : List ElementType} {op : STMAction} {arg : ElementType} {isTok : Cc → Bool} :
      (stm q).action = some (op, arg) → tokenDefs op = some isTok → (∀ a ∈ t, inToken isTok a) →
      (∀ b ∈ as.head?, ¬ inToken isTok b) → Move q as q' as' →
      Auto q' as' ts → Auto q (t ++ as) (arg :: ts)
  | key {q q' : STMState} {str as as' : List Byte} {ts : List ElementType} {op : STMAction} {arg : ElementType} :
      (stm q).action = some (op, arg) → tokenDefs op = none → stringDefs op = some str → Move q as q' as' →
      Auto q' as' ts → Auto q (str ++ as) (keyTypes op ++ ts)
  | ret0 {q q' : STMState} {as : List Byte} {ts : List ElementType} {op : STMAction} {arg : ElementType} :
      (stm q).action = some (op, arg) → tokenDefs op = none → stringDefs op = none → (stm q).nofnext = 0 →
      (stm q).fallback = some q' → Auto q' as ts → Auto q as (arg :: ts)
  | ret {q q' : STMState} {as as' : List Byte} {ts : List ElementType} {op : STMAction} {arg : ElementType} :
      (stm q).action = some (op, arg) → tokenDefs op = none → stringDefs op = none → (stm q).nofnext ≠ 0 →
      Move q as q' as' → Auto q' as' ts → Auto q as (arg :: ts)

variable {e : Enc} {f : Nat → Byte} {mask : Nat}

/-- A run without errors but for unknown entities, to a configuration with `P`. The mask stays the same up to the next item. -/
inductive PassesTo (e : Enc) (f : Nat → Byte) (P : Nat → Cfg → List ElementType → Prop) : Nat → Cfg → List ElementType → Prop where
  | base {mask : Nat} {A : Cfg} {ts : List ElementType} : P mask A ts → PassesTo e f P mask A ts
  | silent {mask : Nat} {A B : Cfg} {ts : List ElementType} : step e f mask A = (none, B) → PassesTo e f P mask B ts → PassesTo e f P mask A ts
  | item {mask mask' : Nat} {A B : Cfg} {r : ElementType} {ts : List ElementType} {c : Bool} :
      step e f mask A = (some r, B) → r ≠ .ErrorOccurred → r ≠ .Exit → PassesTo e f P mask' (clr c B) ts → PassesTo e f P mask A (r :: ts)
  | undef {mask mask' : Nat} {A B : Cfg} {ts : List ElementType} {c : Bool} :
      step e f mask A = (some .ErrorOccurred, B) → B.error = .ErrUndefinedCharacterEntity → PassesTo e f P mask' (clr c B) ts →
      PassesTo e f P mask A ts

/-- A run to the exit item without errors but for unknown entities. -/
abbrev Passes (e : Enc) (f : Nat → Byte) : Nat → Cfg → List ElementType → Prop :=
  PassesTo e f fun mask A ts => ts = [.Exit] ∧ ∃ B, step e f mask A = (some .Exit, B)

theorem PassesTo.steps {P : Nat → Cfg → List ElementType → Prop} {m : Nat} {A B : Cfg} {ts : List ElementType}
    (h : Steps e f mask m A B) (hp : PassesTo e f P mask B ts) : PassesTo e f P mask A ts := by
  induction h with
  | refl => exact hp
  | cons h1 _ ih => exact .silent h1 (ih hp)

/-- The types without the errors. -/
def sound (os : List (ElementType × Cfg)) : List ElementType := (os.map (·.1)).filter (· ≠ .ErrorOccurred)

theorem sound_cons (o : ElementType × Cfg) (os : List (ElementType × Cfg)) :
    sound (o :: os) = if o.1 = .ErrorOccurred then sound os else o.1 :: sound os := by
  unfold sound
  by_cases h : o.1 = .ErrorOccurred
  · simp [h]
  · simp [h]

/-- A sequence of calls that returns no error but for unknown entities, and the exit item at the end. -/
theorem passes_of_runs {calls : List (Nat × Bool)} {A : Cfg} {os : List (ElementType × Cfg)} (h : Runs e f calls A os)
    (he : ∀ o ∈ os, o.1 = .ErrorOccurred → o.2.error = .ErrUndefinedCharacterEntity)
    (hx : .Exit ∈ os.map (·.1)) : ∃ mask ts, Passes e f mask A ts := by
  induction h with
  | nil => cases hx
  | @cons mask c cs A B m r os h1 h2 ih =>
    obtain ⟨A1, h3, h4⟩ := h1
    refine ⟨mask, ?_⟩
    by_cases hr : r = .Exit
    · subst hr
      exact ⟨[.Exit], .steps h3 (.base ⟨rfl, _, h4⟩)⟩
    · have hx' : .Exit ∈ os.map (·.1) := by
        rcases List.mem_cons.1 hx with h | h
        · exact absurd h.symm hr
        · exact h
      obtain ⟨mask', ts, h6⟩ := ih (fun o ho => he o (List.mem_cons_of_mem _ ho)) hx'
      by_cases hre : r = .ErrorOccurred
      · subst hre
        exact ⟨ts, .steps h3 (.undef h4 (he _ (List.mem_cons_self ..) rfl) h6)⟩
      · exact ⟨r :: ts, .steps h3 (.item h4 hre hr h6)⟩

/-- The ASCII values of the characters from an offset on. -/
def view (e : Enc) (f : Nat → Byte) (k n : Nat) : List Byte := (chars e f k n).map Ch.asc

theorem view_succ (k n : Nat) : view e f k (n + 1) = uasc e f k :: view e f (k + ulen e f k) n := rfl

/-- The same with something else behind them. -/
def seen (e : Enc) (f : Nat → Byte) (z : List Byte) (k n : Nat) : List Byte := view e f k n ++ z

theorem seen_succ (z : List Byte) (k n : Nat) : seen e f z k (n + 1) = uasc e f k :: seen e f z (k + ulen e f k) n := rfl

theorem seen_nil (k n : Nat) : seen e f [] k n = view e f k n := List.append_nil _

/-- One character or none is read by a step. -/
def Back (e : Enc) (f : Nat → Byte) (A B : Cfg) (n n' : Nat) : Prop :=
  (n = n' ∧ B.src = A.src) ∨ (n = n' + 1 ∧ B.src = A.src + ulen e f A.src)

/-- Behind a transition. -/
def Next (q : STMState) (rt : List ElementType) (as : List Byte) (ts : List ElementType) : Prop :=
  ∃ q' as' ts', Move q as q' as' ∧ Auto q' as' ts' ∧ ts = rt ++ ts'

/-- The items of the action of a state that is done. -/
def doneTypes (q : STMState) : List ElementType :=
  match (stm q).action with
  | none => []
  | some (op, arg) => if tokenDefs op = none then keyTypes op else [arg]

/-- The state reads a token or a key word. -/
def Busy (q : STMState) : Prop := ∃ op arg, (stm q).action = some (op, arg) ∧ (tokenDefs op ≠ none ∨ stringDefs op ≠ none)

/-- What is left to read, in front of a configuration. -/
structure Left (A : Cfg) (as : List Byte) (ts : List ElementType) : Prop where
  start : A.tok.id = .Start → Auto A.state as ts
  done : A.tok.id = .ParsingDone → Next A.state (doneTypes A.state) as ts
  key : A.tok.id = .ParsingKey → ∃ op arg str as', (stm A.state).action = some (op, arg) ∧ tokenDefs op = none ∧
    stringDefs op = some str ∧ as = str.drop A.tok.pos ++ as' ∧ Next A.state (keyTypes op) as' ts
  tok : inTok A.tok.id = true → ∃ op arg isTok t as', (stm A.state).action = some (op, arg) ∧ tokenDefs op = some isTok ∧
    (∀ a ∈ t, inToken isTok a) ∧ (∀ b ∈ as'.head?, ¬ inToken isTok b) ∧ as = t ++ as' ∧ Next A.state [arg] as' ts

theorem no_fallback_exit (q : STMState) : (stm q).fallback ≠ some .EXIT := by cases q <;> decide

theorem Auto.nil {q : STMState} {as : List Byte} {ts : List ElementType} (h : Auto q as ts) (ha : as = []) : q = .EXIT := by
  have hm : ∀ {q q' : STMState} {as' : List Byte}, ¬ Move q [] q' as' := by
    rintro q q' as' (⟨b, h, -⟩ | ⟨-, -, b, h, -⟩) <;> cases h
  induction h with
  | exit => rfl
  | plain _ h => subst ha; exact (hm h).elim
  | tok _ _ _ _ h => obtain ⟨rfl, rfl⟩ := List.append_eq_nil_iff.1 ha; exact (hm h).elim
  | key _ _ _ h => obtain ⟨rfl, rfl⟩ := List.append_eq_nil_iff.1 ha; exact (hm h).elim
  | ret0 _ _ _ _ h _ ih => rw [ih ha] at h; exact absurd h (no_fallback_exit _)
  | ret _ _ _ _ h => subst ha; exact (hm h).elim

/-- A transition that is no error. -/
theorem trans_next {A B : Cfg} {rt : ElementType} {r : Option ElementType} (h : trans e f (stm A.state) rt A = (r, B))
    (hr : r ≠ some .ErrorOccurred) : r = Scanner.loopEnd rt ∧ B.tok.id = .Start ∧
    ∀ {z : List Byte} {n : Nat} {ts : List ElementType}, n ≠ 0 ∨ z = [] ∨ B.src ≠ A.src → Auto B.state (seen e f z B.src n) ts →
      ∃ n' as', Back e f A B n' n ∧ seen e f z A.src n' = as' ∧ Move A.state as' B.state (seen e f z B.src n) := by
  unfold trans at h
  simp only at h
  split at h
  · rename_i ns hn
    cases h
    refine ⟨rfl, rfl, fun {z n ts} hz _ => ⟨n + 1, _, .inr ⟨rfl, rfl⟩, rfl, .inl ⟨_, seen_succ _ _ _, hn⟩⟩⟩
  · rename_i hn
    split at h
    · rename_i fb hf
      cases h
      refine ⟨rfl, rfl, fun {z n ts} hz ha => ⟨n, _, .inl ⟨rfl, rfl⟩, rfl, .inr ⟨rfl, hf, ?_⟩⟩⟩
      cases n with
      | zero =>
        rcases hz with hz | rfl | hz
        · exact absurd rfl hz
        · exact absurd (hf.trans (congrArg some (ha.nil rfl))) (no_fallback_exit _)
        · exact absurd rfl hz
      | succ n => exact ⟨_, rfl, hn⟩
    · split at h <;> cases h <;> exact absurd rfl hr

theorem asc_uasc {A : Cfg} {c : Byte} (h : asc e f A = c) (h0 : c ≠ 0) : uasc e f A.src = c := by
  unfold asc at h
  split at h
  · exact h
  · exact absurd h.symm h0

theorem any_tok {op : STMAction} {isTok : Cc → Bool} (h : tokenDefs op = some isTok) : isTok .Any = true := by
  cases op <;> simp only [tokenDefs, Option.some.injEq, reduceCtorEq] at h <;> subst h <;> decide

theorem hex_any {a : Byte} (h : hexVal a < 16) (ha : a < 128) : controlCharMap a = .Any := by
  have : ∀ a : _root_.Fin 128, hexVal a.1 < 16 → controlCharMap a.1 = .Any := by decide +kernel
  exact this ⟨a, ha⟩ h

theorem asc_hex {A : Cfg} (h : hexVal (asc e f A) < 16) : cls e f A = .Any := by
  unfold asc at h
  split at h
  · rename_i h1; exact hex_any h h1
  · exact absurd h (by decide)

theorem charStep_same (A : Cfg) : (charStep e f A).src = A.src ∧ (charStep e f A).state = A.state := by
  unfold charStep
  split
  · exact ⟨rfl, rfl⟩
  · split
    · split <;> exact ⟨rfl, rfl⟩
    · exact ⟨rfl, rfl⟩

/-- A step inside of a token reads a character of the token or none. -/
theorem tokStep_reads {A B : Cfg} {op : STMAction} {isTok : Cc → Bool} (ht : tokenDefs op = some isTok) (hbase : A.tok.base ≤ 16)
    (hd : A.tok.id ≠ .ParsingDone) (hs : tokStep e f isTok A = (none, B)) : B.state = A.state ∧
    ((B.src = A.src ∧ (inTok B.tok.id = true ∨ B.tok.id = .ParsingDone ∧ ¬ inToken isTok (uasc e f A.src))) ∨
      (B.src = A.src + ulen e f A.src ∧ inTok B.tok.id = true ∧ inToken isTok (uasc e f A.src))) := by
  have hany := any_tok ht
  have hc : ∀ {c : Byte}, asc e f A = c → c ≠ 0 → controlCharMap c = .Any → inToken isTok (uasc e f A.src) := by
    intro c h1 h2 h3
    rw [asc_uasc h1 h2]
    exact .inl (by rw [h3]; exact hany)
  unfold tokStep at hs
  cases hid : A.tok.id <;> simp only [hid] at hs hd
  · cases hs; exact ⟨rfl, .inl ⟨rfl, .inl rfl⟩⟩
  · exact absurd rfl hd
  · cases hs
  · split at hs <;> cases hs
    · rename_i h; exact ⟨rfl, .inr ⟨rfl, rfl, hc h (by decide) (by decide +kernel)⟩⟩
    · exact ⟨rfl, .inl ⟨rfl, .inl rfl⟩⟩
  · split at hs <;> cases hs
    · rename_i h; exact ⟨rfl, .inr ⟨rfl, rfl, hc h (by decide) (by decide +kernel)⟩⟩
    · exact ⟨rfl, .inl ⟨rfl, .inl rfl⟩⟩
  · split at hs
    · rename_i h
      split at hs <;> cases hs
      · exact ⟨rfl, .inl ⟨rfl, .inl rfl⟩⟩
      · exact ⟨rfl, .inr ⟨rfl, rfl, hc h (by decide) (by decide +kernel)⟩⟩
    · split at hs
      · cases hs; exact ⟨rfl, .inl ⟨rfl, .inl rfl⟩⟩
      · rename_i hlt
        have h1 : inToken isTok (uasc e f A.src) := .inl (by
          have := asc_hex (e := e) (f := f) (A := A) (by omega)
          unfold cls at this
          rw [this]; exact hany)
        split at hs <;> cases hs
        · exact ⟨rfl, .inr ⟨rfl, rfl, h1⟩⟩
        · exact ⟨rfl, .inr ⟨rfl, by simp [tokTo, store, adv, inTok, hid], h1⟩⟩
  · split at hs
    · rename_i h
      cases hs
      refine ⟨rfl, .inr ⟨rfl, by simp [tokTo, store, adv, inTok, hid], .inl ?_⟩⟩
      have := h.2.2
      unfold cls at this
      rw [this]; exact hany
    · split at hs
      · rename_i h
        split at hs
        · cases hs; exact ⟨rfl, .inr ⟨rfl, rfl, hc h (by decide) (by decide +kernel)⟩⟩
        · cases hs
      · cases hs; exact ⟨rfl, .inl ⟨rfl, .inl rfl⟩⟩
  · split at hs
    · rename_i h
      cases hs
      obtain ⟨h1, h2⟩ := charStep_same (e := e) (f := f) A
      obtain ⟨-, -, h3⟩ := charStep_tok (e := e) (f := f) A
      refine ⟨h2, .inr ⟨by simp only [adv]; rw [h1], ?_, .inl h⟩⟩
      simp only [adv]; rw [h3, hid]; rfl
    · split at hs
      · rename_i h
        cases hs
        exact ⟨rfl, .inr ⟨rfl, rfl, .inr h⟩⟩
      · rename_i h1 h2
        cases hs
        refine ⟨rfl, .inl ⟨rfl, .inr ⟨rfl, ?_⟩⟩⟩
        rintro (h3 | h3)
        · exact h1 h3
        · exact h2 h3

theorem inTok_ne {A : Cfg} {i : TokId} (h : A.tok.id = i) (hi : inTok i = false) : ¬ inTok A.tok.id = true := by rw [h, hi]; nofun

theorem ret_fallback : ∀ (q : STMState) (op : STMAction) (arg : ElementType), (stm q).action = some (op, arg) → tokenDefs op = none →
    stringDefs op = none → arg ≠ .Exit → arg ≠ .None ∧ ((stm q).nofnext = 0 → ∃ q', (stm q).fallback = some q') := by
  intro q op arg h1 h2 h3 h4
  cases q <;> simp only [stm, Option.some.injEq, Prod.mk.injEq, reduceCtorEq] at h1
  all_goals
    obtain ⟨rfl, rfl⟩ := h1
    first
      | (cases h2; done)
      | (cases h3; done)
      | exact absurd rfl h4
      | exact ⟨nofun, fun _ => ⟨_, rfl⟩⟩
      | exact ⟨nofun, nofun⟩

theorem tok_arg : ∀ (q : STMState) (op : STMAction) (arg : ElementType), (stm q).action = some (op, arg) → tokenDefs op ≠ none → arg ≠ .None := by
  intro q op arg h1 h2
  cases q <;> simp only [stm, Option.some.injEq, Prod.mk.injEq, reduceCtorEq] at h1
  all_goals
    obtain ⟨rfl, rfl⟩ := h1
    first
      | exact absurd rfl h2
      | exact nofun

theorem str_pos {op : STMAction} {str : List Byte} (h : stringDefs op = some str) : 0 ∉ str ∧ str ≠ [] := by
  cases op <;> simp only [stringDefs, Option.some.injEq, reduceCtorEq] at h <;> subst h <;> decide

/-- The token in front of a state that reads one. -/
theorem Auto.token {q : STMState} {as : List Byte} {ts : List ElementType} {op : STMAction} {arg : ElementType} {isTok : Cc → Bool}
    (h : Auto q as ts) (ha : (stm q).action = some (op, arg)) (ht : tokenDefs op = some isTok) :
    ∃ t as', (∀ a ∈ t, inToken isTok a) ∧ (∀ b ∈ as'.head?, ¬ inToken isTok b) ∧ as = t ++ as' ∧ Next q [arg] as' ts := by
  cases h with
  | exit => cases ha; cases ht
  | plain h => rw [ha] at h; cases h
  | @tok _ q' t as as' ts' op' arg' isTok' k1 k2 k3 k4 k5 k6 =>
    rw [ha] at k1; cases k1
    rw [ht] at k2; cases k2
    exact ⟨t, as, k3, k4, rfl, q', as', ts', k5, k6, rfl⟩
  | key h k => rw [ha] at h; cases h; rw [ht] at k; cases k
  | ret0 h k => rw [ha] at h; cases h; rw [ht] at k; cases k
  | ret h k => rw [ha] at h; cases h; rw [ht] at k; cases k

/-- A token that is not asked for is not begun. -/
theorem unread_start {A : Cfg} {op : STMAction} {arg : ElementType} {isTok : Cc → Bool} (hi : Inv mask A) (ha : (stm A.state).action = some (op, arg))
    (ht : tokenDefs op = some isTok) (hid : A.tok.id ≠ .ParsingDone) (hbit : ¬ mask.testBit arg.toNat = true) : A.tok.id = .Start := by
  have htok : ¬ inTok A.tok.id = true := by
    intro h
    obtain ⟨isTok', arg', op', k1, -, k3⟩ := hi.tok h
    rw [ha] at k1; cases k1
    exact hbit k3
  cases hid' : A.tok.id
  · rfl
  · exact absurd hid' hid
  · obtain ⟨str, op', ⟨arg', k1, k2, k3⟩, -⟩ := hi.key hid'
    rw [ha] at k1; cases k1; rw [ht] at k2; cases k2
  all_goals exact absurd (by rw [hid']; rfl) htok

theorem skips_in {A : Cfg} {isTok : Cc → Bool} : (isTok (cls e f A) || decide (cls e f A = .Amp)) = true ↔ inToken isTok (uasc e f A.src) := by
  unfold inToken cls
  rw [Bool.or_eq_true, decide_eq_true_eq]

/-- One step backwards. -/
theorem step_left {A B : Cfg} {r : Option ElementType} (hi : Inv mask A) (hb : A.tok.id = .ParsingDone → Busy A.state)
    (hs : step e f mask A = (r, B)) (hr : r ≠ some .ErrorOccurred) (hx : r ≠ some .Exit) :
    (B.tok.id = .ParsingDone → Busy B.state) ∧
    ∀ {z : List Byte} {n : Nat} {ts : List ElementType}, n ≠ 0 ∨ z = [] ∨ B.src ≠ A.src → Left B (seen e f z B.src n) ts →
      ∃ n', Back e f A B n' n ∧ Left A (seen e f z A.src n') (r.toList ++ ts) := by
  unfold step at hs
  simp only at hs
  have hidle : (¬ Busy A.state) → A.tok.id = .Start := by
    intro hn
    cases hid : A.tok.id
    · rfl
    · exact absurd (hb hid) hn
    · obtain ⟨str, op, ⟨arg, h1, h2, h3⟩, -⟩ := hi.key hid
      exact absurd ⟨op, arg, h1, .inr (by rw [h3]; nofun)⟩ hn
    all_goals
      obtain ⟨isTok, arg, op, h1, h2, -⟩ := hi.tok (by rw [hid]; rfl)
      exact absurd ⟨op, arg, h1, .inl (by rw [h2]; nofun)⟩ hn
  split at hs
  · rename_i ha
    have hn : ¬ Busy A.state := by rintro ⟨op, arg, h1, -⟩; rw [ha] at h1; cases h1
    have hid := hidle hn
    obtain ⟨rfl, h1, h2⟩ := trans_next hs hr
    refine ⟨fun h => (by rw [h1] at h; cases h), fun {z n ts} hz hl => ?_⟩
    have h3 := hl.start h1
    obtain ⟨n', as', hz', rfl, h4⟩ := h2 hz h3
    exact ⟨n', hz', fun _ => .plain ha h4 h3, fun h => (by rw [hid] at h; cases h), fun h => (by rw [hid] at h; cases h),
      fun h => absurd h (inTok_ne hid rfl)⟩
  · rename_i op arg ha
    split at hs
    · rename_i isTok ht
      have harg := tok_arg _ _ _ ha (by rw [ht]; nofun)
      split at hs
      · rename_i hid
        obtain ⟨rfl, h1, h2⟩ := trans_next hs hr
        refine ⟨fun h => (by rw [h1] at h; cases h), fun {z n ts} hz hl => ?_⟩
        have h3 := hl.start h1
        obtain ⟨n', as', hz', rfl, h4⟩ := h2 hz h3
        refine ⟨n', hz', fun h => (by rw [hid] at h; cases h), fun _ => ⟨_, _, _, h4, h3, ?_⟩, fun h => (by rw [hid] at h; cases h),
          fun h => absurd h (inTok_ne hid rfl)⟩
        unfold doneTypes
        rw [ha]
        simp only [ht, reduceCtorEq, if_false]
        unfold Scanner.loopEnd
        rw [if_neg harg]
        rfl
      · rename_i hid
        by_cases hbit : mask.testBit arg.toNat = true
        case neg =>
          rw [if_neg hbit] at hs
          have hst := unread_start hi ha ht hid hbit
          split at hs
          · rename_i hin
            rw [skips_in] at hin
            cases hs
            refine ⟨fun h => absurd h hid, fun {z n ts} _ hl => ⟨n + 1, .inr ⟨rfl, rfl⟩, ?_⟩⟩
            obtain ⟨t, as', k1, k2, k3, q', as'', ts', m1, m2, m3⟩ := (hl.start hst).token ha ht
            refine ⟨fun _ => ?_, fun h => absurd h hid, fun h => (by rw [hst] at h; cases h), fun h => absurd h (inTok_ne hst rfl)⟩
            have k3' : seen e f z (A.src + ulen e f A.src) n = t ++ as' := k3
            rw [seen_succ, k3', show (none : Option ElementType).toList ++ ts = [arg] ++ ts' from m3]
            refine .tok (t := uasc e f A.src :: t) ha ht (fun a h => ?_) k2 m1 m2
            rcases List.mem_cons.1 h with rfl | h
            · exact hin
            · exact k1 a h
          · rename_i hin
            rw [skips_in] at hin
            obtain ⟨rfl, h1, h2⟩ := trans_next hs hr
            refine ⟨fun h => (by rw [h1] at h; cases h), fun {z n ts} hz hl => ?_⟩
            have h3 := hl.start h1
            obtain ⟨n', as', hz', rfl, h4⟩ := h2 hz h3
            refine ⟨n', hz', fun _ => ?_, fun h => absurd h hid, fun h => (by rw [hst] at h; cases h), fun h => absurd h (inTok_ne hst rfl)⟩
            have hl' : Scanner.loopEnd arg = some arg := by unfold Scanner.loopEnd; rw [if_neg harg]
            rw [hl']
            refine .tok (t := []) ha ht nofun (fun b hb' => ?_) h4 h3
            cases n' with
            | succ n' => cases hb'; exact hin
            | zero =>
              rcases hz' with ⟨rfl, h5⟩ | ⟨h5, -⟩
              · rcases hz with hz | rfl | hz
                · exact absurd rfl hz
                · cases hb'
                · exact absurd h5 hz
              · cases h5
        rw [if_pos hbit] at hs
        have hrn : r = none := by
          cases r with
          | none => rfl
          | some x =>
            exfalso
            unfold tokStep at hs
            simp only at hs
            cases hid' : A.tok.id <;> simp only [hid'] at hs
            all_goals
              repeat' split at hs
              all_goals first
                | (cases hs; done)
                | (cases hs; exact hr rfl)
        subst hrn
        obtain ⟨h1, h2⟩ := tokStep_reads ht hi.base hid hs
        refine ⟨fun _ => by rw [h1]; exact ⟨op, arg, ha, .inl (by rw [ht]; nofun)⟩, fun {z n ts} hz hl => ?_⟩
        -- what is left of the token
        have hkey : A.tok.id ≠ .ParsingKey := by
          intro hk
          obtain ⟨str, op', ⟨arg', k1, k2, k3⟩, -⟩ := hi.key hk
          rw [ha] at k1; cases k1; rw [ht] at k2; cases k2
        have hrest : ∃ n' t as', Back e f A B n' n ∧ (∀ a ∈ t, inToken isTok a) ∧ (∀ b ∈ as'.head?, ¬ inToken isTok b) ∧
            seen e f z A.src n' = t ++ as' ∧ Next A.state [arg] as' ts := by
          rcases h2 with ⟨h3, h4 | ⟨h4, h5⟩⟩ | ⟨h3, h4, h5⟩
          · obtain ⟨op', arg', isTok', t, as', k1, k2, k3, k6, k4, k5⟩ := hl.tok h4
            rw [h1] at k1 k5
            rw [ha] at k1; cases k1
            rw [ht] at k2; cases k2
            rw [h3] at k4
            exact ⟨n, t, as', .inl ⟨rfl, h3⟩, k3, k6, k4, k5⟩
          · have k := hl.done h4
            rw [h1, h3] at k
            refine ⟨n, [], seen e f z A.src n, .inl ⟨rfl, h3⟩, nofun, ?_, rfl, ?_⟩
            · intro b hb
              cases n with
              | zero =>
                rcases hz with hz | rfl | hz
                · exact absurd rfl hz
                · cases hb
                · exact absurd h3 hz
              | succ n => cases hb; exact h5
            unfold doneTypes at k
            rw [ha] at k
            simpa only [ht, reduceCtorEq, if_false] using k
          · obtain ⟨op', arg', isTok', t, as', k1, k2, k3, k6, k4, k5⟩ := hl.tok h4
            rw [h1] at k1 k5
            rw [ha] at k1; cases k1
            rw [ht] at k2; cases k2
            rw [h3] at k4
            refine ⟨n + 1, uasc e f A.src :: t, as', .inr ⟨rfl, h3⟩, ?_, k6, by rw [seen_succ, k4]; rfl, k5⟩
            intro a h
            rcases List.mem_cons.1 h with rfl | h
            · exact h5
            · exact k3 a h
        obtain ⟨n', t, as', hz', k1, k4, k2, k3⟩ := hrest
        refine ⟨n', hz', fun _ => ?_, fun h => absurd h hid, fun h => absurd h hkey, fun _ => ⟨op, arg, isTok, t, as', ha, ht, k1, k4, k2, k3⟩⟩
        obtain ⟨q', as'', ts', m1, m2, m3⟩ := k3
        rw [k2]
        show Auto _ _ ts
        rw [m3]
        exact .tok ha ht k1 k4 m1 m2
    · rename_i ht
      split at hs
      · rename_i str hstr
        have hbusy : Busy A.state := ⟨op, arg, ha, .inr (by rw [hstr]; nofun)⟩
        have hdone : doneTypes A.state = keyTypes op := by unfold doneTypes; rw [ha]; simp only [ht, if_true]
        have hntok : ¬ inTok A.tok.id = true := by
          intro h
          obtain ⟨isTok, arg', op', h1, h2, -⟩ := hi.tok h
          rw [ha] at h1; cases h1; rw [ht] at h2; cases h2
        unfold keyStep at hs
        simp only at hs
        split at hs
        · rename_i hid
          obtain ⟨rfl, h1, h2⟩ := trans_next hs hr
          refine ⟨fun h => (by rw [h1] at h; cases h), fun {z n ts} hz hl => ?_⟩
          have h3 := hl.start h1
          obtain ⟨n', as', hz', rfl, h4⟩ := h2 hz h3
          refine ⟨n', hz', fun h => (by rw [hid] at h; cases h), fun _ => ⟨_, _, _, h4, h3, ?_⟩, fun h => (by rw [hid] at h; cases h),
            fun h => absurd h hntok⟩
          rw [hdone]
          unfold keyTypes Scanner.loopEnd
          by_cases ho : op = .ExpectIdentifierXML
          · simp only [ho, if_true, reduceCtorEq, if_false]; rfl
          · simp only [ho, if_false, if_true]; rfl
        · rename_i hid
          -- start or inside of the key word
          have hfin : ∀ {z : List Byte} {n' : Nat} {as' : List Byte} {ts : List ElementType}, seen e f z A.src n' = str.drop A.tok.pos ++ as' →
              Next A.state (keyTypes op) as' ts → Left A (seen e f z A.src n') ts := by
            intro z n' as' ts k1 k2
            refine ⟨fun h => ?_, fun h => absurd h hid, fun _ => ⟨op, arg, str, as', ha, ht, hstr, k1, k2⟩, fun h => absurd h hntok⟩
            have h0 : A.tok.pos = 0 := hi.pos0 (by rw [h]; rfl)
            rw [h0] at k1
            obtain ⟨q', as'', ts', m1, m2, m3⟩ := k2
            rw [k1, m3]
            exact .key ha ht hstr m1 m2
          split at hs
          · rename_i hpos
            have hB : B.state = A.state ∧ B.src = A.src ∧ B.tok.id = .ParsingDone ∧ r = none := by
              cases hs
              split <;> exact ⟨rfl, rfl, rfl, rfl⟩
            obtain ⟨h1, h2, h3, rfl⟩ := hB
            refine ⟨fun _ => by rw [h1]; exact hbusy, fun {z n ts} hz hl => ⟨n, .inl ⟨rfl, h2⟩, hfin (as' := seen e f z A.src n) ?_ ?_⟩⟩
            · rw [List.drop_eq_nil_of_le (List.getElem?_eq_none_iff.1 hpos)]; rfl
            · have k := hl.done h3
              rw [h1, h2, hdone] at k
              exact k
          · rename_i c hc
            split at hs
            · rename_i hasc
              cases hs
              refine ⟨nofun, fun {z n ts} hz hl => ?_⟩
              obtain ⟨op', arg', str', as', k1, k2, k3, k4, k5⟩ := hl.key rfl
              have k1' : (stm A.state).action = some (op', arg') := k1
              rw [ha] at k1'; cases k1'
              rw [hstr] at k3; cases k3
              refine ⟨n + 1, .inr ⟨rfl, rfl⟩, hfin (as' := as') ?_ k5⟩
              have hlt := (List.getElem?_eq_some_iff.1 hc).1
              have hce := (List.getElem?_eq_some_iff.1 hc).2
              rw [seen_succ, List.drop_eq_getElem_cons hlt, hce]
              have h0 : c ≠ 0 := by
                rintro rfl
                exact (str_pos hstr).1 (hce ▸ List.getElem_mem hlt)
              rw [asc_uasc hasc h0]
              exact congrArg (c :: ·) k4
            · cases hs
              exact absurd rfl hr
      · rename_i hstr
        have hn : ¬ Busy A.state := by
          rintro ⟨op', arg', h1, h2⟩
          rw [ha] at h1; cases h1
          rcases h2 with h2 | h2
          · exact h2 ht
          · exact h2 hstr
        have hid := hidle hn
        have hx' : arg ≠ .Exit := by
          rintro rfl
          have : ∀ q op, (stm q).action = some (op, .Exit) → q = .EXIT := by
            intro q op h
            cases q <;> simp only [stm, Option.some.injEq, Prod.mk.injEq, reduceCtorEq, and_false] at h
            rfl
          have hq := this _ _ ha
          rw [hq] at hs
          cases hs
          exact hx rfl
        obtain ⟨hnone, hfall⟩ := ret_fallback _ _ _ ha ht hstr hx'
        split at hs
        · rename_i h0
          obtain ⟨q', hq⟩ := hfall h0
          rw [hq] at hs
          cases hs
          refine ⟨fun h => ?_, fun {z n ts} hz hl => ?_⟩
          · have h' : A.tok.id = .ParsingDone := h
            rw [hid] at h'; cases h'
          · exact ⟨n, .inl ⟨rfl, rfl⟩, fun _ => .ret0 ha ht hstr h0 hq (hl.start hid), fun h => (by rw [hid] at h; cases h), fun h => (by rw [hid] at h; cases h),
              fun h => absurd h (inTok_ne hid rfl)⟩
        · rename_i h0
          obtain ⟨rfl, h1, h2⟩ := trans_next (A := { A with tokenpos := A.src, out := [] }) hs hr
          refine ⟨fun h => (by rw [h1] at h; cases h), fun {z n ts} hz hl => ?_⟩
          have h3 := hl.start h1
          obtain ⟨n', as', hz', rfl, h4⟩ := h2 hz h3
          refine ⟨n', hz', fun _ => ?_, fun h => (by rw [hid] at h; cases h), fun h => (by rw [hid] at h; cases h),
            fun h => absurd h (inTok_ne hid rfl)⟩
          unfold Scanner.loopEnd
          rw [if_neg hnone]
          exact .ret ha ht hstr h0 h4 h3

theorem trans_item {A B : Cfg} {sd : Elem} {rt r : ElementType} (h : trans e f sd rt A = (some r, B)) (hr : r ≠ .ErrorOccurred) : r = rt := by
  unfold trans at h
  simp only at h
  unfold Scanner.loopEnd at h
  repeat' split at h
  all_goals first
    | (cases h; done)
    | (cases h; rfl)
    | (cases h; exact absurd rfl hr)

theorem exit_arg {q : STMState} {op : STMAction} (h : (stm q).action = some (op, .Exit)) : q = .EXIT := by
  cases q <;> simp only [stm, Option.some.injEq, Prod.mk.injEq, reduceCtorEq, and_false] at h
  rfl

theorem step_exits {A B : Cfg} (h : step e f mask A = (some .Exit, B)) : A.state = .EXIT := by
  unfold step at h
  simp only at h
  split at h
  · have := trans_item h nofun; cases this
  · rename_i op arg ha
    split at h
    · rename_i isTok ht
      split at h
      · have := trans_item h nofun; subst this; exact exit_arg ha
      · split at h
        · exfalso
          unfold tokStep at h
          simp only at h
          cases hid' : A.tok.id <;> simp only [hid'] at h
          all_goals
            repeat' split at h
            all_goals cases h
        · split at h
          · cases h
          · have := trans_item h nofun; subst this; exact exit_arg ha
    · split at h
      · exfalso
        unfold keyStep at h
        simp only at h
        split at h
        · have := trans_item h nofun
          split at this <;> cases this
        · repeat' split at h
          all_goals cases h
      · split at h
        · cases h; exact exit_arg ha
        · have := trans_item h nofun; subst this; exact exit_arg ha

theorem loopEnd_ret {rt r : ElementType} (h : Scanner.loopEnd rt = some r) : rt = r := by
  unfold Scanner.loopEnd at h
  split at h
  · cases h
  · exact Option.some.inj h

theorem trans_undef {A B : Cfg} {q : STMState} {rt : ElementType} (hrt : rt ≠ .ErrorOccurred) (h : trans e f (stm q) rt A = (some .ErrorOccurred, B)) :
    B.error ≠ .ErrUndefinedCharacterEntity := by
  have hm : (stm q).miss ≠ some .ErrUndefinedCharacterEntity := by cases q <;> decide
  unfold trans at h
  simp only at h
  split at h
  · exact absurd (loopEnd_ret (congrArg Prod.fst h)) hrt
  · split at h
    · exact absurd (loopEnd_ret (congrArg Prod.fst h)) hrt
    · split at h
      · rename_i er her
        cases h
        rintro rfl
        exact hm her
      · cases h
        simp only
        split <;> nofun

/-- Where an entity is unknown. -/
theorem step_undef {A B : Cfg} (hi : Inv mask A) (hs : step e f mask A = (some .ErrorOccurred, B)) (he : B.error = .ErrUndefinedCharacterEntity) :
    inTok A.tok.id = true ∧ B.state = A.state ∧ B.src = A.src ∧ B.tok.id = .Start ∧
    ∃ op arg isTok, (stm A.state).action = some (op, arg) ∧ tokenDefs op = some isTok := by
  have hargs : ∀ op arg, (stm A.state).action = some (op, arg) → arg ≠ .ErrorOccurred := by
    intro op arg h
    generalize A.state = q at h
    cases q <;> simp only [stm, Option.some.injEq, Prod.mk.injEq, reduceCtorEq] at h <;> (obtain ⟨-, rfl⟩ := h; nofun)
  unfold step at hs
  simp only at hs
  split at hs
  · exact absurd he (trans_undef (rt := .None) nofun hs)
  · rename_i op arg ha
    have hre := hargs _ _ ha
    split at hs
    · rename_i isTok ht
      split at hs
      · exact absurd he (trans_undef hre hs)
      · split at hs
        · have hk : A.tok.id ≠ .ParsingKey := by
            intro hk
            obtain ⟨str, op', ⟨arg', k1, k2, k3⟩, -⟩ := hi.key hk
            rw [ha] at k1; cases k1; rw [ht] at k2; cases k2
          refine ⟨?_, ?_⟩
          · unfold tokStep at hs
            simp only at hs
            cases hid : A.tok.id <;> simp only [hid] at hs hk
            all_goals
              repeat' split at hs
              all_goals first
                | (cases hs; done)
                | rfl
                | exact absurd rfl hk
          · unfold tokStep at hs
            simp only at hs
            cases hid : A.tok.id <;> simp only [hid] at hs hk
            all_goals
              repeat' split at hs
              all_goals first
                | (cases hs; done)
                | (cases hs; exact ⟨rfl, rfl, rfl, op, arg, isTok, ha, ht⟩)
        · split at hs
          · cases hs
          · exact absurd he (trans_undef hre hs)
    · split at hs
      · unfold keyStep at hs
        simp only at hs
        split at hs
        · refine absurd he (trans_undef ?_ hs)
          split <;> nofun
        · repeat' split at hs
          all_goals first
            | (cases hs; done)
            | (cases hs; simp only [initTok, tokTo, reduceCtorEq] at he)
      · split at hs
        · cases hs; exact absurd rfl hre
        · exact absurd he (trans_undef (A := { A with tokenpos := A.src, out := [] }) hre hs)

theorem back_hyp {z : List Byte} {b n : Nat} {p : Prop} (h : b < n ∨ z = []) : n ≠ 0 ∨ z = [] ∨ p := by
  rcases h with h | h
  · exact .inl (by omega)
  · exact .inr (.inl h)

theorem Back.more {A B : Cfg} {z : List Byte} {b n n' : Nat} (h : Back e f A B n' n) (hz : b < n ∨ z = []) : b < n' ∨ z = [] := by
  rcases hz with hz | hz
  · left
    rcases h with h | h <;> omega
  · exact .inr hz

/-- Back over an unknown entity. -/
theorem undef_left {A B : Cfg} {as : List Byte} {ts : List ElementType} (hi : Inv mask A) (hs : step e f mask A = (some .ErrorOccurred, B))
    (he : B.error = .ErrUndefinedCharacterEntity) (h8 : Auto A.state as ts) : Left A as ts := by
  obtain ⟨h1, h2, h3, h4, op, arg, isTok, ha, ht⟩ := step_undef hi hs he
  refine ⟨fun h => absurd h1 (inTok_ne h rfl), fun h => absurd h1 (inTok_ne h rfl), fun h => absurd h1 (inTok_ne h rfl), fun _ => ?_⟩
  obtain ⟨t, as', k1, k2, k3, k4⟩ := h8.token ha ht
  exact ⟨op, arg, isTok, t, as', ha, ht, k1, k2, k3, k4⟩

/-- A run without errors but for unknown entities is a run of the automaton. -/
theorem PassesTo.left {P : Nat → Cfg → List ElementType → Prop} {z : List Byte} {b : Nat}
    (hP : ∀ {mask : Nat} {A : Cfg} {ts : List ElementType}, P mask A ts → Inv mask A → (A.tok.id = .ParsingDone → Busy A.state) →
      ∃ n, (b < n ∨ z = []) ∧ Left A (seen e f z A.src n) ts)
    {mask : Nat} {A : Cfg} {ts : List ElementType} (h : PassesTo e f P mask A ts) : Inv mask A →
    (A.tok.id = .ParsingDone → Busy A.state) → ∃ n, (b < n ∨ z = []) ∧ Left A (seen e f z A.src n) ts := by
  induction h with
  | base h => exact hP h
  | silent hs _ ih =>
    intro hi hb
    obtain ⟨h1, h2⟩ := step_left hi hb hs nofun nofun
    obtain ⟨n, hz, h3⟩ := ih (step_inv hi hs) h1
    obtain ⟨n', h4, h5⟩ := h2 (back_hyp hz) h3
    exact ⟨n', h4.more hz, h5⟩
  | @item mask mask' A B r ts c hs hr hx _ ih =>
    intro hi hb
    obtain ⟨h1, h2⟩ := step_left hi hb hs (fun h => hr (Option.some.inj h)) (fun h => hx (Option.some.inj h))
    have h3 := step_ret hi hs
    have h4 : Inv0 (clr c B) := by
      cases c
      · exact h3
      · exact ⟨h3.buf, h3.pos, h3.base, h3.id, h3.val, h3.cr⟩
    have h5 : (clr c B).tok = B.tok ∧ (clr c B).state = B.state ∧ (clr c B).src = B.src := by cases c <;> exact ⟨rfl, rfl, rfl⟩
    obtain ⟨n, hz, h6⟩ := ih (h4.inv mask') (by rw [h5.1, h5.2.1]; exact h1)
    suffices h : Left B (seen e f z B.src n) ts by
      obtain ⟨n', h7, h8⟩ := h2 (back_hyp hz) h
      exact ⟨n', h7.more hz, h8⟩
    refine ⟨?_, ?_, ?_, ?_⟩
    · have := h6.start; rw [h5.1, h5.2.1, h5.2.2] at this; exact this
    · have := h6.done; rw [h5.1, h5.2.1, h5.2.2] at this; exact this
    · have := h6.key; rw [h5.1, h5.2.1, h5.2.2] at this; exact this
    · have := h6.tok; rw [h5.1, h5.2.1, h5.2.2] at this; exact this
  | @undef mask mask' A B ts c hs he _ ih =>
    intro hi hb
    obtain ⟨-, h2, h3, h4, -⟩ := step_undef hi hs he
    have h0 := step_ret hi hs
    have h5 : (clr c B).tok = B.tok ∧ (clr c B).state = B.state ∧ (clr c B).src = B.src := by cases c <;> exact ⟨rfl, rfl, rfl⟩
    have h6 : Inv0 (clr c B) := by
      cases c
      · exact h0
      · exact ⟨h0.buf, h0.pos, h0.base, h0.id, h0.val, h0.cr⟩
    obtain ⟨n, hz, h7⟩ := ih (h6.inv mask') (by rw [h5.1, h4]; nofun)
    have h8 := h7.start (by rw [h5.1]; exact h4)
    rw [h5.2.1, h5.2.2, h2, h3] at h8
    exact ⟨n, hz, undef_left hi hs he h8⟩

/-- A run to the exit item without errors but for unknown entities is a run of the automaton. -/
theorem Passes.left {A : Cfg} {ts : List ElementType} (h : Passes e f mask A ts) (hi : Inv mask A)
    (hb : A.tok.id = .ParsingDone → Busy A.state) : ∃ n, Left A (view e f A.src n) ts := by
  obtain ⟨n, -, h1⟩ := PassesTo.left (z := []) (b := 0) (fun {mask A ts} h hi hb => by
    obtain ⟨rfl, B, hs⟩ := h
    have hq := step_exits hs
    have hn : ∀ op arg, (stm A.state).action = some (op, arg) → tokenDefs op = none ∧ stringDefs op = none := by
      rw [hq]; intro op arg h; cases h; exact ⟨rfl, rfl⟩
    refine ⟨0, .inr rfl, fun _ => by rw [hq]; exact .exit, fun h => ?_, fun h => ?_, fun h => ?_⟩
    · obtain ⟨op, arg, h1, h2⟩ := hb h
      obtain ⟨h3, h4⟩ := hn op arg h1
      rcases h2 with h2 | h2
      · exact absurd h3 h2
      · exact absurd h4 h2
    · obtain ⟨str, op, ⟨arg, h1, -, h3⟩, -⟩ := hi.key h
      rw [(hn op arg h1).2] at h3; cases h3
    · obtain ⟨isTok, arg, op, h1, h2, -⟩ := hi.tok h
      rw [(hn op arg h1).1] at h2; cases h2) h hi hb
  rw [seen_nil] at h1
  exact ⟨n, h1⟩

end TW.Mach
