import Verif.Proofs.Moved
import Verif.Proofs.Positions

/-!
# Parts of the document that are skipped

Comments, processing instructions and CDATA sections.
-/

namespace TW

open Spec

namespace Mach

variable {e : Enc} {f g : Nat → Byte} {mask d : Nat}

/-- Follow the transitions of states without action. -/
def walk : STMState → List Byte → Option STMState
  | s, [] => some s
  | s, a :: as =>
    if (stm s).action = none then
      match (stm s).next (controlCharMap a) with
      | some s' => walk s' as
      | none => none
    else none

theorem walk_append (s t : STMState) (as bs : List Byte) (h : walk s as = some t) :
    walk s (as ++ bs) = walk t bs := by
  induction as generalizing s with
  | nil => cases h; rfl
  | cons a as ih =>
    unfold walk at h
    rw [List.cons_append, walk]
    split at h
    · rename_i ha
      rw [if_pos ha]
      split at h
      · exact ih _ h
      · cases h
    · cases h

theorem walk_steps {n : Nat} : ∀ {A : Cfg} {st : STMState}, walk A.state ((chars e f A.src n).map Ch.asc) = some st →
    A.tok.id = .Start → Steps e f mask n A { A with state := st, src := offs e f A.src n } := by
  induction n with
  | zero => intro A st h _; cases h; exact .refl _
  | succ n ih =>
    intro A st h hid
    rw [chars, List.map_cons, walk] at h
    split at h
    · rename_i ha
      split at h
      · rename_i s' hn
        have h1 : step e f mask A = (none, { A with state := s', src := A.src + ulen e f A.src }) := by
          unfold step
          simp only [ha]
          unfold trans
          have : (stm A.state).next (cls e f A) = some s' := hn
          simp only [this]
          unfold idTo tokTo adv
          rw [← hid]
          rfl
        rw [offs_succ]
        exact .cons h1 (ih (A := { A with state := s', src := A.src + ulen e f A.src }) h hid)
      · cases h
    · cases h

/-- In a state without action the state of the token is reset. -/
theorem step_reset {A : Cfg} (ha : (stm A.state).action = none) :
    step e f mask (idTo .Start A) = step e f mask A := by
  unfold step
  have : (stm (idTo .Start A).state).action = none := ha
  simp only [ha, this]
  rfl

/-- After skipping: the state and the source have changed and the token may have been used. -/
structure Skipped (A : Cfg) (st : STMState) (q : Nat) (E : Cfg) : Prop where
  eq : E = { A with state := st, src := q, tok := E.tok }
  id : E.tok.id = .Start
  inv : Inv0 E

theorem walk_skipped {n : Nat} {A : Cfg} {st : STMState} (hi : Inv0 A)
    (h : walk A.state ((chars e f A.src (n + 1)).map Ch.asc) = some st) :
    ∃ E, Skipped A st (offs e f A.src (n + 1)) E ∧ ∀ mask, Steps e f mask (n + 1) A E := by
  have ha : (stm A.state).action = none := by
    rw [chars, List.map_cons, walk] at h
    split at h
    · assumption
    · cases h
  refine ⟨{ idTo .Start A with state := st, src := offs e f A.src (n + 1) },
    ⟨rfl, rfl, ⟨hi.buf, hi.pos, hi.base, .inl rfl, hi.val, hi.cr⟩⟩, fun mask => ?_⟩
  have := walk_steps (e := e) (f := f) (mask := mask) (A := idTo .Start A) h rfl
  cases this with
  | cons h1 h2 => exact .cons (by rw [← step_reset ha]; exact h1) h2

theorem Skipped.then {A E F : Cfg} {st st' : STMState} {q q' : Nat} (h : Skipped A st q E) (h' : Skipped E st' q' F) :
    Skipped A st' q' F := by
  refine ⟨?_, h'.id, h'.inv⟩
  rw [h'.eq, h.eq]

/-- Runs from a configuration and from one that is reached. -/
theorem runs_later {A E : Cfg} (h : ∀ mask, ∃ j, Steps e f mask j A E) {cs : List (Nat × Bool)}
    {os : List (ElementType × Cfg)} : Runs e f cs A os ↔ Runs e f cs E os := by
  constructor
  · intro hr
    cases hr with
    | nil => exact .nil _
    | @cons mask _ _ _ _ _ _ _ h1 h2 =>
      obtain ⟨j, hj⟩ := h mask
      exact .cons (h1.split hj).2 h2
  · intro hr
    cases hr with
    | nil => exact .nil _
    | @cons mask _ _ _ _ _ _ _ h1 h2 =>
      obtain ⟨j, hj⟩ := h mask
      exact .cons (h1.later hj) h2

theorem runs_same {A E : Cfg} (h : ∀ mask, step e f mask E = step e f mask A) {cs : List (Nat × Bool)}
    {os : List (ElementType × Cfg)} (hr : Runs e f cs A os) : Runs e f cs E os := by
  cases hr with
  | nil => exact .nil _
  | cons h1 h2 => exact .cons (h1.same (h _)) h2

/-- The states before the first and before any tag are the same. -/
theorem fin_docstart {x y : STMState} (hx : x ∈ [STMState.DOCSTART, .SEEKTOK]) (hy : y ∈ [STMState.DOCSTART, .SEEKTOK])
    {C : Cfg} {r : ElementType} : ∀ (m : Nat) {A : Cfg}, Fin e f mask m { A with state := x } r C →
      Fin e f mask m { A with state := y } r C := by
  intro m
  induction m with
  | zero =>
    rintro A ⟨A1, h1, h2⟩
    cases h1
    refine ⟨_, .refl _, ?_⟩
    revert h2
    simp only [List.mem_cons, List.not_mem_nil, or_false] at hx hy
    unfold step Mach.trans cls
    simp only
    generalize controlCharMap (uasc e f A.src) = c
    rcases hx with rfl | rfl <;> rcases hy with rfl | rfl <;> cases c <;> exact (nomatch ·)
  | succ m ih =>
    rintro A ⟨A1, h1, h2⟩
    cases h1 with
    | @cons _ _ B _ h3 h4 =>
      have key : step e f mask { A with state := y } = (none, B) ∨
          (∃ B' : Cfg, B = { B' with state := x } ∧ step e f mask { A with state := y } = (none, { B' with state := y })) := by
        revert h3
        simp only [List.mem_cons, List.not_mem_nil, or_false] at hx hy
        unfold step Mach.trans cls
        simp only
        generalize controlCharMap (uasc e f A.src) = c
        intro h3
        have e1 : Mach.adv e f { idTo .Start A with state := x } =
          { Mach.adv e f (idTo .Start A) with state := x } := rfl
        rcases hx with rfl | rfl <;> rcases hy with rfl | rfl <;> cases c <;>
          first
          | exact .inl h3
          | exact .inr ⟨Mach.adv e f (idTo .Start A), by cases h3; rfl, rfl⟩
      rcases key with h5 | ⟨B', rfl, h5⟩
      · exact ⟨A1, .cons h5 h4, h2⟩
      · obtain ⟨A2, h6, h7⟩ := ih (A := B') ⟨A1, h4, h2⟩
        exact ⟨A2, .cons h5 h6, h7⟩

theorem runs_docstart {x y : STMState} (hx : x ∈ [STMState.DOCSTART, .SEEKTOK]) (hy : y ∈ [STMState.DOCSTART, .SEEKTOK])
    {A : Cfg} {cs : List (Nat × Bool)} {os : List (ElementType × Cfg)} (h : Runs e f cs { A with state := x } os) :
    Runs e f cs { A with state := y } os := by
  cases h with
  | nil => exact .nil _
  | cons h1 h2 => exact .cons (fin_docstart hx hy _ h1) h2

/-- The items after the skipped part are those of a scanner that has only the rest. -/
theorem Skipped.items {A E : Cfg} {st : STMState} {q : Nat} (hi : Inv0 A) (hs : Skipped A st q E)
    (hst : (stm st).action = none) (hg : Behind q f g) {cs : List (Nat × Bool)} {l : List Obs} :
    (∃ os, Runs e f cs E os ∧ os.map (Mach.obs false) = l) ↔
    (∃ os, Runs e g cs { A with state := st, src := 0 } os ∧ os.map (Mach.obs false) = l) := by
  -- the token state
  let F : Cfg := idTo .Start { A with state := st, src := q }
  have iF : Inv0 F := ⟨hi.buf, hi.pos, hi.base, .inl rfl, hi.val, hi.cr⟩
  have hT : Twin E F := by
    have hu : userChar F = userChar E := by rw [hs.eq]; rfl
    refine ⟨by rw [hs.eq]; rfl, ⟨hs.id.symm, ?_, ?_, ?_, ?_, ?_, ?_⟩, hu⟩
    · rw [hs.inv.cr]; exact hi.cr
    · rw [hs.inv.pos]; exact hi.pos
    · rw [hs.inv.val]; exact hi.val
    · rw [hs.id]; exact (nomatch ·)
    · rw [hs.inv.pos]; exact fun _ => rfl
    · rw [hs.inv.buf]; exact hi.buf
  let G : Cfg := { A with state := st, src := q }
  let H : Cfg := { A with state := st, src := 0 }
  have hFG : ∀ mask, step e f mask F = step e f mask G := fun mask => step_reset (A := G) hst
  have hM : Moved q True G H := ⟨by show G = _; simp only [G, H, Nat.zero_add], .inl trivial⟩
  have ob : ∀ a b : ElementType × Cfg, a.1 = b.1 ∧ Moved q True a.2 b.2 → Mach.obs false a = Mach.obs false b := by
    rintro ⟨a, a'⟩ ⟨b, b'⟩ ⟨h1, h2⟩
    have h3 := h2.eq
    simp only at h1 h3
    unfold Mach.obs
    rw [h1, h3]
    rfl
  constructor
  · rintro ⟨os, h1, rfl⟩
    obtain ⟨os1, h2, h3, -⟩ := hT.runs hs.inv h1
    have h4 := runs_same (fun mask => (hFG mask).symm) h2
    obtain ⟨os2, h5, h6⟩ := hM.runs hg h4
    exact ⟨os2, h5, by rw [← h3 false]; exact (h6.map ob).symm⟩
  · rintro ⟨os, h1, rfl⟩
    obtain ⟨os1, h2, h3⟩ := hM.runs_back hg h1
    have h4 := runs_same hFG h2
    obtain ⟨os2, h5, h6, -⟩ := hT.symm.runs iF h4
    exact ⟨os2, h5, by rw [h6 false]; exact h3.map ob⟩

theorem offs_add (k m n : Nat) : offs e f k (m + n) = offs e f (offs e f k m) n := by
  induction n with
  | zero => rfl
  | succ n ih => rw [← Nat.add_assoc, offs, ih, offs]

theorem chars_add (k m n : Nat) : chars e f k (m + n) = chars e f k m ++ chars e f (offs e f k m) n := by
  induction m generalizing k with
  | zero => rw [Nat.zero_add]; rfl
  | succ m ih =>
    rw [show m + 1 + n = m + n + 1 by omega, chars, ih, chars, offs_succ]
    rfl

theorem chars_length (k n : Nat) : (chars e f k n).length = n := by
  induction n generalizing k with
  | zero => rfl
  | succ n ih => rw [chars, List.length_cons, ih]

theorem ascs_lt {k n : Nat} {as : List Byte} (h : (chars e f k n).map Ch.asc = as) : ∀ a ∈ as, a < 256 := by
  intro a ha
  rw [← h, List.mem_map] at ha
  obtain ⟨c, hc, rfl⟩ := ha
  exact chars_lt n k c hc

/-- Take the characters apart. -/
theorem ascs_split {k n : Nat} {as bs : List Byte} (h : (chars e f k n).map Ch.asc = as ++ bs) :
    (chars e f k as.length).map Ch.asc = as ∧ (chars e f (offs e f k as.length) bs.length).map Ch.asc = bs ∧
      offs e f k n = offs e f (offs e f k as.length) bs.length := by
  have hl : n = as.length + bs.length := by
    have := congrArg List.length h
    rw [List.length_map, chars_length, List.length_append] at this
    exact this
  subst hl
  rw [chars_add, List.map_append] at h
  obtain ⟨h1, h2⟩ := List.append_inj h (by rw [List.length_map, chars_length])
  exact ⟨h1, h2, offs_add ..⟩

theorem class_eq_iff : ∀ a : _root_.Fin 256, (controlCharMap a.1 = .Dash ↔ a.1 = 45) ∧ (controlCharMap a.1 = .Gt ↔ a.1 = 62) ∧
    (controlCharMap a.1 = .Questm ↔ a.1 = 63) ∧ (controlCharMap a.1 = .Csb ↔ a.1 = 93) := by decide +kernel

/-- The dashes at the end of a comment. -/
theorem walk_comment (as : List Byte) (hb : ∀ a ∈ as, a < 256) (h : ¬ [45, 45] <:+: as) (hl : as.getLast? ≠ some 45) :
    walk .COMSEEKE (as ++ [45, 45, 62]) = some .SEEKTOK ∧
    (as ≠ [] → as.head? ≠ some 45 → walk .COMENDD2 (as ++ [45, 45, 62]) = some .SEEKTOK) := by
  induction as with
  | nil => exact ⟨by decide, fun h => absurd rfl h⟩
  | cons a as ih =>
    have h1 : ¬ [45, 45] <:+: as := fun hx => h (hx.trans (List.suffix_cons a as).isInfix)
    have h2 : as.getLast? ≠ some 45 := by
      intro hx
      cases as with
      | nil => cases hx
      | cons b bs => exact hl (by rw [List.getLast?_cons_cons]; exact hx)
    obtain ⟨i1, i2⟩ := ih (fun x hx => hb x (List.mem_cons_of_mem _ hx)) h1 h2
    have hc := (class_eq_iff ⟨a, hb a List.mem_cons_self⟩).1
    have other : controlCharMap a ≠ .Dash → ∀ st ∈ [STMState.COMSEEKE, .COMENDD2],
        walk st (a :: as ++ [45, 45, 62]) = some .SEEKTOK := by
      intro hd st hst
      rw [List.cons_append, walk]
      have n1 : ∀ c, c ≠ Cc.Dash → (stm .COMSEEKE).next c = some .COMSEEKE := by
        intro c h; cases c <;> first | rfl | exact absurd rfl h
      have n2 : ∀ c, c ≠ Cc.Dash → (stm .COMENDD2).next c = some .COMSEEKE := by
        intro c h; cases c <;> first | rfl | exact absurd rfl h
      simp only [List.mem_cons, List.not_mem_nil, or_false] at hst
      rcases hst with rfl | rfl
      · rw [if_pos (by rfl), n1 _ hd]; exact i1
      · rw [if_pos (by rfl), n2 _ hd]; exact i1
    by_cases ha : a = 45
    · subst ha
      refine ⟨?_, fun _ hx => absurd rfl hx⟩
      have hn : as ≠ [] := by rintro rfl; exact hl rfl
      have hh : as.head? ≠ some 45 := by
        intro hx
        cases as with
        | nil => cases hx
        | cons b bs =>
          cases hx
          exact h ⟨[], bs, rfl⟩
      rw [List.cons_append, walk]
      exact i2 hn hh
    · have hd : controlCharMap a ≠ .Dash := fun hx => ha (hc.1 hx)
      exact ⟨other hd _ (by simp), fun _ _ => other hd _ (by simp)⟩

/-- A processing instruction without question mark. -/
theorem walk_pi (as : List Byte) (hb : ∀ a ∈ as, a < 256) (h : 63 ∉ as) (bs : List Byte) :
    walk .PITAG (as ++ bs) = walk .PITAG bs := by
  induction as with
  | nil => rfl
  | cons a as ih =>
    have hc := (class_eq_iff ⟨a, hb a List.mem_cons_self⟩).2.2.1
    have hd : controlCharMap a ≠ .Questm := fun hx => h (by rw [← (hc.1 hx : a = 63)]; exact List.mem_cons_self)
    have n1 : ∀ c, c ≠ Cc.Questm → (stm .PITAG).next c = some .PITAG := by
      intro c h; cases c <;> first | rfl | exact absurd rfl h
    rw [List.cons_append, walk, if_pos (by rfl), n1 _ hd]
    exact ih (fun x hx => hb x (List.mem_cons_of_mem _ hx)) (fun hx => h (List.mem_cons_of_mem _ hx))

/-- The brackets at the end of a CDATA section. -/
theorem walk_cdata (as : List Byte) (hb : ∀ a ∈ as, a < 256) :
    ∀ x ∈ [([], STMState.CDATA1), ([93], .CDATA2), ([93, 93], .CDATA3)],
      ¬ [93, 93, 93] <:+: x.1 ++ as ++ [93, 93] → ¬ [93, 93, 62] <:+: x.1 ++ as →
      walk x.2 (as ++ [93, 93, 62]) = some .CONTENT := by
  induction as with
  | nil =>
    intro x hx h1 h2
    simp only [List.mem_cons, List.not_mem_nil, or_false] at hx
    rcases hx with rfl | rfl | rfl
    · decide
    · exact absurd (List.infix_refl _) h1
    · exact absurd ⟨[93], [], rfl⟩ h1
  | cons a as ih =>
    have hc := (class_eq_iff ⟨a, hb a List.mem_cons_self⟩).2
    have ih := ih (fun x hx => hb x (List.mem_cons_of_mem _ hx))
    have i1 := ih ([], .CDATA1) (by simp)
    have i2 := ih ([93], .CDATA2) (by simp)
    have i3 := ih ([93, 93], .CDATA3) (by simp)
    have less : ∀ (p : List Byte) (w r : List Byte), ¬ w <:+: p ++ a :: as ++ r → ¬ w <:+: [] ++ as ++ r := by
      intro p w r h hx
      refine h (hx.trans ⟨p ++ [a], [], ?_⟩)
      simp
    have less' : ∀ (p : List Byte) (w : List Byte), ¬ w <:+: p ++ a :: as → ¬ w <:+: [] ++ as := by
      intro p w h hx
      refine h (hx.trans ⟨p ++ [a], [], ?_⟩)
      simp
    intro x hx h1 h2
    simp only [List.mem_cons, List.not_mem_nil, or_false] at hx
    rcases hx with rfl | rfl | rfl
    · rw [List.cons_append, walk, if_pos (by rfl)]
      by_cases ha : a = 93
      · subst ha; exact i2 h1 h2
      · have hd : controlCharMap a ≠ .Csb := fun hx => ha (hc.2.2.1 hx)
        have n1 : ∀ c, c ≠ Cc.Csb → (stm .CDATA1).next c = some .CDATA1 := by
          intro c h; cases c <;> first | rfl | exact absurd rfl h
        rw [n1 _ hd]
        exact i1 (less _ _ _ h1) (less' _ _ h2)
    · rw [List.cons_append, walk, if_pos (by rfl)]
      by_cases ha : a = 93
      · subst ha; exact i3 h1 h2
      · have hd : controlCharMap a ≠ .Csb := fun hx => ha (hc.2.2.1 hx)
        have n1 : ∀ c, c ≠ Cc.Csb → (stm .CDATA2).next c = some .CDATA1 := by
          intro c h; cases c <;> first | rfl | exact absurd rfl h
        rw [n1 _ hd]
        exact i1 (less _ _ _ h1) (less' _ _ h2)
    · rw [List.cons_append, walk, if_pos (by rfl)]
      have ha : a ≠ 62 := by rintro rfl; exact h2 ⟨[], as, rfl⟩
      have hd : controlCharMap a ≠ .Gt := fun hx => ha (hc.1.1 hx)
      have n1 : ∀ c, c ≠ Cc.Gt → (stm .CDATA3).next c = some .CDATA1 := by
        intro c h; cases c <;> first | rfl | exact absurd rfl h
      rw [n1 _ hd]
      exact i1 (less _ _ _ h1) (less' _ _ h2)

/-- After some characters of the key word. -/
structure InKey (e : Enc) (f : Nat → Byte) (A : Cfg) (i : Nat) (B : Cfg) : Prop where
  eq : B = { A with src := offs e f A.src i, tok := B.tok }
  id : B.tok.id ≠ .ParsingDone
  pos : B.tok.pos = i
  buf : B.tok.buf.length = 16

theorem InKey.next {A B : Cfg} {i c : Nat} (hs : A.state = .CDATA) (h : InKey e f A i B)
    (hc : [67, 68, 65, 84, 65][i]? = some c) (hl : c < 128) (ha : uasc e f (offs e f A.src i) = c) :
    ∃ B', (∀ mask, step e f mask B = (none, B')) ∧ InKey e f A (i + 1) B' := by
  have hsB : B.state = .CDATA := by rw [h.eq]; exact hs
  have hsrc : B.src = offs e f A.src i := by rw [h.eq]
  have h1 : asc e f B = c := asc_of (by rw [hsrc]; exact ha) hl
  refine ⟨tokTo (fun t => { t with id := .ParsingKey, pos := t.pos + 1 }) (adv e f B), fun mask => ?_, ?_, (nomatch ·), ?_, h.buf⟩
  · unfold step
    rw [hsB]
    show keyStep e f (stm .CDATA) .ExpectIdentifierCDATA [67, 68, 65, 84, 65] B = _
    unfold keyStep
    simp only [if_neg h.id, h.pos, hc, if_pos h1]
  · unfold adv tokTo
    simp only [hsrc, offs]
    rw [h.eq]
  · show B.tok.pos + 1 = i + 1
    rw [h.pos]

/-- The key word of a CDATA section. -/
theorem cdata_key {A : Cfg} (hi : Inv0 A) (hs : A.state = .CDATA) (hid : A.tok.id = .Start)
    (h : (chars e f A.src 6).map Ch.asc = [67, 68, 65, 84, 65, 91]) :
    ∃ E, Skipped A .CDATA1 (offs e f A.src 6) E ∧ ∀ mask, Steps e f mask 7 A E := by
  simp only [chars, List.map_cons, List.map_nil, List.cons.injEq, and_true, chAt] at h
  obtain ⟨c1, c2, c3, c4, c5, c6⟩ := h
  have k0 : InKey e f A 0 A := ⟨rfl, by rw [hid]; exact (nomatch ·), hi.pos, hi.buf⟩
  obtain ⟨B1, s1, k1⟩ := k0.next hs rfl (by decide) c1
  obtain ⟨B2, s2, k2⟩ := k1.next hs rfl (by decide) c2
  obtain ⟨B3, s3, k3⟩ := k2.next hs rfl (by decide) c3
  obtain ⟨B4, s4, k4⟩ := k3.next hs rfl (by decide) c4
  obtain ⟨B5, s5, k5⟩ := k4.next hs rfl (by decide) c5
  have hs5 : B5.state = .CDATA := by rw [k5.eq]; exact hs
  have hsrc : B5.src = offs e f A.src 5 := by rw [k5.eq]
  have s6 : ∀ mask, step e f mask B5 = (none, initTok .ParsingDone B5) := by
    intro mask
    unfold step
    rw [hs5]
    show keyStep e f (stm .CDATA) .ExpectIdentifierCDATA [67, 68, 65, 84, 65] B5 = _
    unfold keyStep
    simp only [if_neg k5.id, k5.pos]
    rfl
  have s7 : ∀ mask, step e f mask (initTok .ParsingDone B5) =
      (none, adv e f { idTo .Start (initTok .ParsingDone B5) with state := .CDATA1 }) := by
    intro mask
    have h1 : (initTok .ParsingDone B5).state = .CDATA := hs5
    have h2 : (initTok .ParsingDone B5).tok.id = .ParsingDone := rfl
    have h3 : (initTok .ParsingDone B5).src = offs e f A.src 5 := hsrc
    generalize initTok .ParsingDone B5 = B at h1 h2 h3
    unfold step
    rw [h1]
    show keyStep e f (stm .CDATA) .ExpectIdentifierCDATA [67, 68, 65, 84, 65] B = _
    unfold keyStep
    rw [if_pos h2]
    unfold trans
    have : cls e f B = .Osb := by
      show controlCharMap (uasc e f B.src) = _
      rw [h3, show uasc e f (offs e f A.src 5) = 91 from c6]
      decide
    simp only [this]
    rfl
  refine ⟨_, ⟨?_, ?_, ?_⟩, fun mask => .cons (s1 mask) (.cons (s2 mask) (.cons (s3 mask) (.cons (s4 mask) (.cons (s5 mask)
    (.cons (s6 mask) (.cons (s7 mask) (.refl _)))))))⟩
  · unfold adv idTo initTok tokTo
    simp only [hsrc]
    rw [k5.eq]
    rfl
  · rfl
  · exact ⟨k5.buf, rfl, Nat.zero_le _, .inl rfl, rfl, rfl⟩

end Mach

open Mach Scanner

variable {e output : Enc} {em : Option (List (Nat × UChar))} {addr : Nat} {doc : List Byte}

/-- A scanner that continues with another source. -/
theorem SRel0.fresh {rest : List Byte} (hb : ∀ b ∈ doc, b < 256) (hr : ∀ b ∈ rest, b < 256) {s : Scanner (TextScanner SrcIt)} {A : Cfg}
    (h : SRel0 (oneSrc doc (strm_lt doc hb)) e s A) (st : STMState) :
    SRel0 (oneSrc rest (strm_lt rest hr)) e { s with state := st, src := TextScanner.mk' e (SrcIt.mk' rest false) }
      { A with state := st, src := 0 } := by
  have h0 := oneScanner_rel e .utf8 none 0 rest (strm_lt rest hr)
  obtain ⟨⟨ld', t', tp', h5, h6, h7⟩, -, -⟩ := h0
  obtain ⟨⟨ld, t, tp, rfl, h1, h2⟩, h3, h4⟩ := h
  have : t' = TextScanner.mk' e (SrcIt.mk' rest false) := (congrArg Scanner.src h5).symm
  subst this
  refine ⟨⟨ld', _, tp, rfl, h6, ?_, h2.2⟩, .inl ?_, ⟨h4.buf, h4.pos, h4.base, h4.id, h4.val, h4.cr⟩⟩
  · intro hw; exact absurd oneSrc_wrap hw
  · intro i hi; exact absurd hi (Nat.not_lt_zero i)

/-- Scanners with the same runs. -/
theorem same_session {hb : ∀ k, strm doc k < 256} {s t : Scanner (TextScanner SrcIt)} {A B : Cfg}
    (h : SRel0 (oneSrc doc hb) e s A) (h' : SRel0 (oneSrc doc hb) e t B)
    {calls : List (Nat × Bool)} {os : List Obs}
    (hs : ∀ os, Runs e (strm doc) calls A os → Runs e (strm doc) calls B os)
    (hr : ∃ n u, session n false calls s = (.ok os, u)) : ∃ n u, session n false calls t = (.ok os, u) := by
  obtain ⟨n, u, h1⟩ := hr
  obtain ⟨xs, h2, rfl, -⟩ := session_ok (fun _ => oneSrc_wrap) h h1
  obtain ⟨N, hN⟩ := session_runs (sp := false) oneSrc_total (fun _ => oneSrc_wrap) (hs _ h2)
  obtain ⟨u, hu⟩ := hN N (Nat.le_refl _) _ h'
  exact ⟨N, u, hu⟩

theorem behind_drop (doc : List Byte) (q : Nat) : Behind q (strm doc) (strm (doc.drop q)) := by
  intro k
  unfold strm
  simp [List.getD, List.getElem?_drop, Nat.add_comm]

/-- The sessions from the start of a part that is skipped. -/
theorem skipped_session (hb : ∀ b ∈ doc, b < 256) {s : Scanner (TextScanner SrcIt)} {A : Cfg}
    (h : SRel0 (oneSrc doc (strm_lt doc hb)) e s A) {E : Cfg} {st : STMState} {q : Nat} (hs : Skipped A st q E)
    (hst : (stm st).action = none) (hE : ∀ mask, ∃ j, Steps e (strm doc) mask j A E)
    (calls : List (Nat × Bool)) (os : List Obs) :
    (∃ n t, session n false calls s = (.ok os, t)) ↔
    (∃ n t, session n false calls { s with state := st, src := TextScanner.mk' e (SrcIt.mk' (doc.drop q) false) } =
      (.ok os, t)) := by
  have hr : ∀ b ∈ doc.drop q, b < 256 := fun b hx => hb b (List.mem_of_mem_drop hx)
  have hB := h.fresh hb hr st
  have hi := hs.items (e := e) (f := strm doc) h.inv hst (behind_drop doc q) (cs := calls) (l := os)
  constructor
  · rintro ⟨n, t, h1⟩
    obtain ⟨xs, h2, rfl, -⟩ := session_ok (fun _ => oneSrc_wrap) h h1
    obtain ⟨ys, h3, h4⟩ := hi.1 ⟨xs, (runs_later hE).1 h2, rfl⟩
    obtain ⟨N, hN⟩ := session_runs (sp := false) oneSrc_total (fun _ => oneSrc_wrap) h3
    obtain ⟨t, ht⟩ := hN N (Nat.le_refl _) _ hB
    exact ⟨N, t, by rw [ht, h4]⟩
  · rintro ⟨n, t, h1⟩
    obtain ⟨xs, h2, rfl, -⟩ := session_ok (fun _ => oneSrc_wrap) hB h1
    obtain ⟨ys, h3, h4⟩ := hi.2 ⟨xs, h2, rfl⟩
    obtain ⟨N, hN⟩ := session_runs (sp := false) oneSrc_total (fun _ => oneSrc_wrap) ((runs_later hE).2 h3)
    obtain ⟨t, ht⟩ := hN N (Nat.le_refl _) _ h
    exact ⟨N, t, by rw [ht, h4]⟩

end TW
