import Verif.Proofs.AcceptRun
import Verif.Proofs.Items

/-!
# The runs that do not come to an end

A run without an error that does not come to an end is in one of the lost states at the end of the text. With null
characters and the end of the comment, the processing instruction, the CDATA section or the internal subset behind it
the text would lead to the exit.
-/

namespace TW.Mach

open Spec Scanner

variable {e : Enc} {f : Nat → Byte} {mask : Nat}

/-- The ends of the marks that can be left open. -/
def closers : List (List Byte) := [codes "-->", codes "?>", codes "]]>", codes "]>"]

/-- The end of the mark a lost state is in. -/
def closerOf : STMState → List Byte
  | .PITAG => codes "?>"
  | .ENTITYLC => codes "]>"
  | .CDATA1 => codes "]]>"
  | _ => codes "-->"

theorem closerOf_mem (q : STMState) : closerOf q ∈ closers := by cases q <;> decide

/-- The lost states null characters lead to. -/
def sunk : List STMState := [.PITAG, .ENTITYLC, .COMSEEKE, .CDATA1]

theorem sunk_null : ∀ q ∈ sunk, (stm q).action = none ∧ (stm q).next (controlCharMap 0) = some q := by decide +kernel

theorem lost_null : ∀ q ∈ lost, (stm q).action = none ∧ ∃ q' ∈ sunk, (stm q).next (controlCharMap 0) = some q' := by decide +kernel

theorem auto_next {q q' : STMState} {b : Byte} {as : List Byte} {ts : List ElementType} (h1 : (stm q).action = none)
    (h2 : (stm q).next (controlCharMap b) = some q') (h : Auto q' as ts) : Auto q (b :: as) ts :=
  .plain h1 (.inl ⟨b, rfl, h2⟩) h

theorem sunk_auto {q : STMState} (h : q ∈ sunk) : ∃ ts, Auto q (closerOf q ++ [0]) ts := by
  have hs : Auto .SEEKTOK [0] [.Exit] := auto_next rfl (by decide +kernel) .exit
  have hc : Auto .CONTENT [0] [.Exit] := auto_next rfl (by decide +kernel) .exit
  simp only [sunk, List.mem_cons, List.not_mem_nil, or_false] at h
  rcases h with rfl | rfl | rfl | rfl
  · exact ⟨_, auto_next (b := 63) (q' := .PITAGEND) rfl (by decide +kernel) (auto_next (b := 62) rfl (by decide +kernel) hc)⟩
  · exact ⟨_, auto_next (b := 93) (q' := .ENTITY) rfl (by decide +kernel)
      (auto_next (b := 62) (q' := .ENTITYE) rfl (by decide +kernel) (.ret0 rfl rfl rfl rfl rfl hs))⟩
  · exact ⟨_, auto_next (b := 45) (q' := .COMENDD2) rfl (by decide +kernel)
      (auto_next (b := 45) (q' := .COMENDCL) rfl (by decide +kernel) (auto_next (b := 62) rfl (by decide +kernel) hs))⟩
  · exact ⟨_, auto_next (b := 93) (q' := .CDATA2) rfl (by decide +kernel)
      (auto_next (b := 93) (q' := .CDATA3) rfl (by decide +kernel) (auto_next (b := 62) rfl (by decide +kernel) hc))⟩

/-- Null characters before what is read. -/
theorem sunk_nulls {len : Nat} (hf : Ends f len) {q : STMState} (hq : q ∈ sunk) {z : List Byte} {ts : List ElementType} (h : Auto q z ts) :
    ∀ (n : Nat) {k : Nat}, len ≤ k → Auto q (seen e f z k n) ts
  | 0, _, _ => h
  | n + 1, k, hk => by
    rw [seen_succ, hf.uasc hk]
    obtain ⟨h1, h2⟩ := sunk_null q hq
    exact auto_next h1 h2 (sunk_nulls hf hq h n (by omega))

theorem lost_auto {len : Nat} (hf : Ends f len) {q : STMState} (hq : q ∈ lost) :
    ∃ z ∈ closers, ∃ ts, ∀ n k, len ≤ k → Auto q (seen e f (z ++ [0]) k (n + 1)) ts := by
  obtain ⟨h1, q', h2, h3⟩ := lost_null q hq
  obtain ⟨ts, h4⟩ := sunk_auto h2
  refine ⟨closerOf q', closerOf_mem q', ts, fun n k hk => ?_⟩
  rw [seen_succ, hf.uasc hk]
  exact auto_next h1 h3 (sunk_nulls hf h2 h4 n (by omega))

/-- In a lost state nothing is begun. -/
theorem lost_start {A : Cfg} (hi : Inv mask A) (hb : A.tok.id = .ParsingDone → Busy A.state) (h : A.state ∈ lost) : A.tok.id = .Start := by
  obtain ⟨ha, -⟩ := stm_lost _ h
  cases hid : A.tok.id
  · rfl
  · obtain ⟨op, arg, k1, -⟩ := hb hid
    rw [ha] at k1; cases k1
  · obtain ⟨str, op, ⟨arg, k1, -⟩, -⟩ := hi.key hid
    rw [ha] at k1; cases k1
  all_goals
    obtain ⟨isTok, arg, op, k1, -⟩ := hi.tok (by rw [hid]; rfl)
    rw [ha] at k1; cases k1

/-- Calls without an error that do not all return. -/
theorem hang_passes {len : Nat} (hf : Ends f len) {calls : List (Nat × Bool)} : ∀ {A : Cfg}, Inv0 A →
    (¬ ∃ os, Runs e f calls A os) →
    (∀ k os, Runs e f (calls.take k) A os → ∀ o ∈ os, o.1 = .ErrorOccurred → o.2.error = .ErrUndefinedCharacterEntity) →
    ∃ B, Lost len B ∧ ∀ {P : Nat → Cfg → List ElementType → Prop} {ts0 : List ElementType}, (∀ mask, P mask B ts0) → ∃ mask ts, PassesTo e f P mask A ts := by
  induction calls with
  | nil => intro A _ h _; exact absurd ⟨[], .nil A⟩ h
  | cons x cs ih =>
    intro A hi h he
    obtain ⟨mask, c⟩ := x
    rcases fin_or_lost (e := e) hf (32 * (len + 2)) (hi.inv mask) (meas_le len A) with ⟨m, r, B, -, h1⟩ | ⟨m, B, -, h1, h2⟩
    · have h2 : ¬ ∃ os, Runs e f cs (clr c B) os := fun ⟨os, ho⟩ => h ⟨_, .cons h1 ho⟩
      have hx : r ≠ .Exit := by
        rintro rfl
        obtain ⟨A1, k1, k2⟩ := h1
        have := step_exits k2
        rw [step_at_exit this] at k2
        cases k2
        exact h2 (runs_exit_exist (by rw [(clr_same c _).2.1]; exact this))
      have hi' : Inv0 (clr c B) := by
        obtain ⟨A1, k1, k2⟩ := h1
        exact (step_ret (steps_inv k1 (hi.inv mask)) k2).clr c
      obtain ⟨C, h3, h4⟩ := ih (A := clr c B) hi' h2 (fun k os ho o hoo =>
        he (k + 1) _ (.cons h1 ho) o (List.mem_cons_of_mem _ hoo))
      refine ⟨C, h3, fun {P ts0} hP => ?_⟩
      obtain ⟨mask', ts, h5⟩ := h4 hP
      have hu := he 1 [(r, B)] (.cons h1 (.nil _)) (r, B) (List.mem_cons_self ..)
      obtain ⟨A1, k1, k2⟩ := h1
      by_cases hr : r = .ErrorOccurred
      · subst hr
        exact ⟨mask, ts, .steps k1 (.undef k2 (hu rfl) h5)⟩
      · exact ⟨mask, r :: ts, .steps k1 (.item k2 hr hx h5)⟩
    · exact ⟨B, h2, fun {P ts0} hP => ⟨mask, ts0, .steps h1 (.base (hP mask))⟩⟩

/-- A run that does not come to an end is a run of the automaton on the text with null characters and the end of a mark. -/
theorem hang_auto {len : Nat} (hf : Ends f len) {calls : List (Nat × Bool)} {A : Cfg} (hi : Inv0 A)
    (hs : A.tok.id = .Start) (h : ¬ ∃ os, Runs e f calls A os)
    (he : ∀ k os, Runs e f (calls.take k) A os → ∀ o ∈ os, o.1 = .ErrorOccurred → o.2.error = .ErrUndefinedCharacterEntity) :
    ∃ z ∈ closers, ∃ n ts, len < n ∧ Auto A.state (seen e f (z ++ [0]) A.src n) ts := by
  obtain ⟨B, h1, h2⟩ := hang_passes hf hi h he
  obtain ⟨z, hz, ts0, h3⟩ := lost_auto (e := e) hf h1.2
  obtain ⟨mask, ts, h4⟩ := h2 (P := fun _ C us => C = B ∧ us = ts0) (fun _ => ⟨rfl, rfl⟩)
  obtain ⟨n, h5, h6⟩ := PassesTo.left (z := z ++ [0]) (b := len) (fun {_ C us} h hi hb => by
    obtain ⟨rfl, rfl⟩ := h
    have := h3 len C.src h1.1
    exact ⟨len + 1, .inl (Nat.lt_succ_self _), Left.ofStart (lost_start hi hb h1.2) this⟩) h4 (hi.inv mask) (fun h => by rw [hs] at h; cases h)
  refine ⟨z, hz, n, ts, ?_, h6.start hs⟩
  rcases h5 with h5 | h5
  · exact h5
  · exact absurd h5 (by simp)

/-! ## The converse -/

/-- What is kept in a run on a text that is cut off. -/
structure GoesOn (e : Enc) (f : Nat → Byte) (len : Nat) (z : List Byte) (mask : Nat) (A : Cfg) (ts : List ElementType) : Prop where
  inv : Inv mask A
  busy : A.tok.id = .ParsingDone → Busy A.state
  left : ∃ n, n ≠ 0 ∧ len < A.src + n ∧ Left A (seen e f z A.src n) ts

theorem auto_at_exit {q : STMState} {as : List Byte} {ts : List ElementType} (h : Auto q as ts) (hq : q = .EXIT) : as = [] := by
  cases h with
  | exit => rfl
  | plain h => subst hq; cases h
  | tok h k => subst hq; cases h; cases k
  | key h _ k => subst hq; cases h; cases k
  | ret0 _ _ _ _ k => subst hq; cases k
  | ret _ _ _ k => subst hq; exact absurd rfl k

/-- The step behind which nothing is left of the text leads to a lost state. -/
theorem consumes_on {len : Nat} (hf : Ends f len) {z : List Byte} (hz : z ≠ []) {A B : Cfg} {n n' : Nat} {ts : List ElementType} (hn : n ≠ 0)
    (hl : len < A.src + n) (hc : Consumes e f A B n n') (hB : Left B (seen e f z B.src n') ts) :
    (n' ≠ 0 ∧ len < B.src + n') ∨ Lost len B := by
  rcases hc with ⟨rfl, h1⟩ | ⟨rfl, h1, h2⟩
  · rw [h1]; exact .inl ⟨hn, hl⟩
  · have hp := ulen_pos e f A.src
    by_cases h0 : n' = 0
    · right
      subst h0
      have hk : len ≤ A.src := by omega
      obtain ⟨h3, h4⟩ := h2 (hf.uasc hk)
      rcases stm_end _ (STMState.mem_all _) _ h3 with ⟨h5, -⟩ | ⟨-, h5⟩
      · exact absurd (auto_at_exit (hB.start h4) h5) hz
      · exact ⟨by omega, h5⟩
    · exact .inl ⟨h0, by omega⟩

/-- A step on a text that is cut off. -/
theorem GoesOn.step {len : Nat} (hf : Ends f len) {z : List Byte} (hz : z ≠ []) {A B : Cfg} {r : Option ElementType} {ts : List ElementType}
    (h : GoesOn e f len z mask A ts) (hs : Mach.step e f mask A = (r, B)) :
    (r = some .ErrorOccurred ∧ B.error = .ErrUndefinedCharacterEntity ∧ B.tok.id = .Start ∧
      ∃ n, n ≠ 0 ∧ len < B.src + n ∧ Left B (seen e f z B.src n) ts) ∨
    (r ≠ some .Exit ∧ r ≠ some .ErrorOccurred ∧ ∃ ts', ts = r.toList ++ ts' ∧ (B.tok.id = .ParsingDone → Busy B.state) ∧
      ((∃ n, n ≠ 0 ∧ len < B.src + n ∧ Left B (seen e f z B.src n) ts') ∨ Lost len B)) := by
  obtain ⟨n, hn, hlen, hl⟩ := h.left
  rcases step_forward' (.inl hn) h.inv h.busy hl hs with ⟨-, -, h1⟩ | ⟨h1, h2, h3, h4, h5⟩ | ⟨h1, h2, n', ts', h3, h4, h5⟩
  · unfold seen at h1
    exact absurd (List.append_eq_nil_iff.1 h1).2 hz
  · exact .inl ⟨h1, h2, h3, n, hn, by rw [h4]; exact hlen, h5⟩
  · refine .inr ⟨h1, h2, ts', h3, (step_left h.inv h.busy hs h2 h1).1, ?_⟩
    rcases consumes_on hf hz hn hlen h5 h4 with h6 | h6
    · exact .inl ⟨n', h6.1, h6.2, h4⟩
    · exact .inr h6

theorem GoesOn.steps {len m : Nat} (hf : Ends f len) {z : List Byte} (hz : z ≠ []) {A B : Cfg} {ts : List ElementType}
    (hs : Steps e f mask m A B) : GoesOn e f len z mask A ts → GoesOn e f len z mask B ts ∨ ∃ j C, Steps e f mask j A C ∧ Lost len C := by
  induction hs with
  | refl => exact .inl
  | cons h1 _ ih =>
    intro h
    rcases h.step hf hz h1 with ⟨h2, -⟩ | ⟨-, -, ts', h2, h3, h4 | h4⟩
    · cases h2
    · have h2' : ts = ts' := h2
      subst h2'
      rcases ih ⟨step_inv h.inv h1, h3, h4⟩ with h5 | ⟨j, C, h5, h6⟩
      · exact .inl h5
      · exact .inr ⟨j + 1, C, .cons h1 h5, h6⟩
    · exact .inr ⟨1, _, .one h1, h4⟩

/-- A call that returns. -/
theorem GoesOn.call {len m : Nat} (hf : Ends f len) {z : List Byte} (hz : z ≠ []) {A B : Cfg} {r : ElementType} {ts : List ElementType}
    (h : GoesOn e f len z mask A ts) (hs : Fin e f mask m A r B) (c : Bool) :
    (r = .ErrorOccurred ∧ B.error = .ErrUndefinedCharacterEntity ∧ ∀ mask', GoesOn e f len z mask' (clr c B) ts) ∨
    (r ≠ .Exit ∧ r ≠ .ErrorOccurred ∧ ∃ ts', ts = r :: ts' ∧ ((∀ mask', GoesOn e f len z mask' (clr c B) ts') ∨ Lost len (clr c B))) := by
  have hs0 := hs
  obtain ⟨A1, h1, h2⟩ := hs
  rcases h.steps hf hz h1 with h3 | ⟨j, C, h3, h4⟩
  · have h0 := (step_ret h3.inv h2).clr c
    obtain ⟨e1, e2, e3⟩ := clr_same c B
    rcases h3.step hf hz h2 with ⟨k1, k2, k3, n, k4, k5, k6⟩ | ⟨k1, k2, ts', k3, k4, k5⟩
    · cases k1
      refine .inl ⟨rfl, k2, fun mask' => ⟨h0.inv mask', ?_, n, k4, ?_, ?_⟩⟩
      · rw [e1, k3]; nofun
      · rw [e3]; exact k5
      · rw [e3]; exact k6.congr e1 e2
    · refine .inr ⟨fun h => k1 (congrArg some h), fun h => k2 (congrArg some h), ts', k3, ?_⟩
      rcases k5 with ⟨n, k5, k6, k7⟩ | k5
      · refine .inl fun mask' => ⟨h0.inv mask', ?_, n, k5, ?_, ?_⟩
        · rw [e1, e2]; exact k4
        · rw [e3]; exact k6
        · rw [e3]; exact k7.congr e1 e2
      · refine .inr ⟨?_, ?_⟩
        · rw [e3]; exact k5.1
        · rw [e2]; exact k5.2
  · exact absurd (hs0.split h3).2 (h4.never hf)

/-- The calls that return on a text that is cut off. -/
theorem GoesOn.runs {len : Nat} (hf : Ends f len) {z : List Byte} (hz : z ≠ []) {calls : List (Nat × Bool)} {A : Cfg} {os : List (ElementType × Cfg)}
    (h : Runs e f calls A os) : ∀ {ts : List ElementType}, (∀ mask, GoesOn e f len z mask A ts) →
    (∀ o ∈ os, o.1 = .ErrorOccurred → o.2.error = .ErrUndefinedCharacterEntity) ∧ .Exit ∉ os.map (·.1) ∧ ∃ k, sound os = ts.take k := by
  induction h with
  | nil => intro ts _; exact ⟨fun o ho => absurd ho List.not_mem_nil, List.not_mem_nil, 0, rfl⟩
  | @cons mask c cs A B m r os h1 h2 ih =>
    intro ts hg
    rcases (hg mask).call hf hz h1 c with ⟨rfl, k1, k2⟩ | ⟨k1, k2, ts', rfl, k3 | k3⟩
    · obtain ⟨h3, h4, k, h5⟩ := ih k2
      refine ⟨?_, ?_, k, ?_⟩
      · intro o ho hr
        rcases List.mem_cons.1 ho with rfl | ho
        · exact k1
        · exact h3 o ho hr
      · intro hx
        rcases List.mem_cons.1 hx with hx | hx
        · cases hx
        · exact h4 hx
      · rw [sound_cons, if_pos rfl, h5]
    · obtain ⟨h3, h4, k, h5⟩ := ih k3
      refine ⟨?_, ?_, k + 1, ?_⟩
      · intro o ho hr
        rcases List.mem_cons.1 ho with rfl | ho
        · exact absurd hr k2
        · exact h3 o ho hr
      · intro hx
        rcases List.mem_cons.1 hx with hx | hx
        · exact k1 hx.symm
        · exact h4 hx
      · rw [sound_cons, if_neg k2, h5]
        rfl
    · cases h2 with
      | cons h3 => exact absurd h3 (k3.never hf)
      | nil =>
        refine ⟨?_, ?_, 1, ?_⟩
        · intro o ho hr
          rcases List.mem_cons.1 ho with rfl | ho
          · exact absurd hr k2
          · exact absurd ho List.not_mem_nil
        · intro hx
          rcases List.mem_cons.1 hx with hx | hx
          · exact k1 hx.symm
          · exact absurd hx List.not_mem_nil
        · rw [sound_cons, if_neg k2]
          simp [sound]

theorem GoesOn.new {output : Enc} {em : Option (List (Nat × UChar))} {addr len n : Nat} {z : List Byte} {ts : List ElementType} (hn : len < n)
    (h : Auto .START (seen e f z 0 n) ts) (mask : Nat) : GoesOn e f len z mask (Cfg.new output em addr) ts :=
  ⟨(Inv0.new output em addr).inv mask, nofun, n, by omega, (by show len < 0 + n; omega), Left.ofStart rfl h⟩

/-! ## The number of items -/

/-- Before the end there are at most as many items as bytes, unknown entities not counted. -/
theorem runs_pot_sound {len : Nat} {calls : List (Nat × Bool)} {A : Cfg} {os : List (ElementType × Cfg)} (hf : Ends f len)
    (h : Runs e f calls A os) : Inv0 A → Ended e f A →
    (∀ o ∈ os, o.1 = .ErrorOccurred → o.2.error = .ErrUndefinedCharacterEntity) → .Exit ∉ os.map (·.1) → (sound os).length ≤ pot len A := by
  induction h with
  | nil => intro _ _ _ _; simp [sound]
  | @cons mask c cs A B m r os h1 h2 ih =>
    intro hi hq he hx
    have hx1 : r ≠ .Exit := fun h => hx (by rw [h]; exact List.mem_cons_self ..)
    have e1 : pot len (clr c B) = pot len B := by cases c <;> rfl
    obtain ⟨A1, k1, k2⟩ := id h1
    have hi1 := steps_inv k1 (hi.inv mask)
    have h7 := step_ended k2
    have h8 : Ended e f (clr c B) := by cases c <;> exact h7
    have := ih ((step_ret hi1 k2).clr c) h8 (fun o ho => he o (List.mem_cons_of_mem _ ho)) fun h => hx (List.mem_cons_of_mem _ h)
    rw [sound_cons]
    by_cases hr : r = .ErrorOccurred
    · subst hr
      rw [if_pos rfl]
      obtain ⟨-, h3, h4, -⟩ := step_undef hi1 k2 (he _ (List.mem_cons_self ..) rfl)
      have h5 : pot len B = pot len A1 := by unfold pot; rw [h3, h4]
      obtain ⟨-, h6 | ⟨m', C, h6, h7⟩⟩ := steps_pot hf k1 hq
      · omega
      · exact absurd h1 (no_fin_of_lost hf h6 h7)
    · rw [if_neg hr]
      have := (fin_pot hf hq h1 hr hx1).1
      simp only [List.length_cons]
      omega

end TW.Mach
