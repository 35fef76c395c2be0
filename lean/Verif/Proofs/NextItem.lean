import Verif.Proofs.Simulation

/-!
# `nextItem` runs the step machine
-/

set_option linter.unusedSectionVars false

namespace TW

open Spec Mach

variable {ι : Type} [Iter ι] {f : Nat → Byte} {S : Source ι f} {e : Enc} {mask n : Nat}
  {A B : Cfg} {s : Scanner (TextScanner ι)} {isTok : Cc → Bool} {arg : ElementType} {ld : Ld}

theorem TokQ.later {m : Nat} {r : Bool} (h : Steps e f mask m A B) (hst : B.state = A.state)
    (hq : TokQ S e mask B r s) : TokQ S e mask A r s := by
  cases r with
  | true =>
    obtain ⟨m', C, h1, h2, h3, h4⟩ := hq
    exact ⟨m + m', C, h.trans h1, h2, h3, by rw [h4, hst]⟩
  | false =>
    obtain ⟨m', C, D, h1, h2, h3⟩ := hq
    exact ⟨m + m', C, D, h.trans h1, h2, h3⟩

theorem tokenLoop_sim (k : Nat) :
    ∀ (A : Cfg) (s : Scanner (TextScanner ι)), SRel S e mask s A → Reads mask A.state isTok arg →
      A.tok.id = .ParsingToken →
      Sim S e mask k A (Scanner.tokenLoop isTok k s) (TokQ S e mask A) := by
  induction k with
  | zero =>
    intro A s h hr hid
    exact ⟨0, A, .refl A, fun _ => Nat.le_refl _, fun h => absurd rfl h, fun h => by cases h⟩
  | succ k ih =>
    intro A s h hr hid
    obtain ⟨⟨ld, hh⟩, hp, hi⟩ := h
    have hstep : step e f mask A = _ := step_reads hr (by rw [hid]; simp)
    unfold tokStep at hstep
    simp only [hid] at hstep
    unfold Scanner.tokenLoop
    refine Sim.bind (control_sim hh hp hi) ?_
    rintro _ s1 ⟨rfl, h1⟩
    have hav := (h1.loaded (Ld.up_ne _)).1
    by_cases ht : isTok (cls e f A) = true
    · rw [if_pos ht] at hstep ⊢
      refine Sim.bind (tokenChar_sim h1 hp hi) ?_
      rintro _ s2 ⟨ld', hl, h2, hall⟩
      have hsrc : (charStep e f A).src = A.src ∧ (charStep e f A).state = A.state ∧
          (charStep e f A).tok.id = A.tok.id := by
        unfold charStep; split
        · exact ⟨rfl, rfl, rfl⟩
        · split
          · split <;> exact ⟨rfl, rfl, rfl⟩
          · exact ⟨rfl, rfl, rfl⟩
      refine Sim.bind (skip_sim h2 hl hsrc.1.symm) ?_
      rintro _ s3 h3
      have hst : (adv e f (charStep e f A)).state = A.state := hsrc.2.1
      have hp3 : Past0 S e (adv e f (charStep e f A)) :=
        past_adv hall (by simp only [adv, hsrc.1])
      have := ih (adv e f (charStep e f A)) s3 ⟨⟨_, h3⟩, hp3.past, step_inv hi hstep⟩
        (by rw [hst]; exact hr) (by rw [← hid]; exact hsrc.2.2)
      exact (this.later (.one hstep) (by omega)).mono fun r s' hq => hq.later (.one hstep) hst
    · rw [if_neg ht] at hstep ⊢
      by_cases ha : cls e f A = .Amp
      · rw [if_pos ha] at hstep ⊢
        refine Sim.bind (skip_sim h1 (Ld.up_ne _) rfl) ?_
        rintro _ s2 h2
        have hp2 : Past0 S e (idTo .ParsingEntity (adv e f A)) :=
          past_adv (h1.all (Ld.up_ne _) (.inr (by rw [ha]; simp))) rfl
        have hent := parseEntity_sim (n := k) (mask := mask) (isTok := isTok) (arg := arg) h2 rfl
          hp2.past (step_inv hi hstep) hr
        refine Sim.later (.one hstep) (n := k) (by omega) (Sim.bind hent ?_)
        intro r s3 hq
        cases r with
        | true =>
          obtain ⟨m, B, g1, g2, g3, g4⟩ := hq
          rw [if_pos rfl]
          have hrun : Scanner.tokInit .ParsingToken s3 = (.ok (), initS .ParsingToken s3) := rfl
          rw [M.bind_ok hrun]
          have := ih B _ g2 (by rw [g4]; exact hr) g3
          exact (this.later g1 (by omega)).mono fun r s' hq => (hq.later g1 g4).later (.one hstep) rfl
        | false =>
          obtain ⟨m, A1, B, g1, g2, g3, g4⟩ := hq
          rw [if_neg (by simp)]
          exact ⟨m + 1, A1, B, .cons hstep g1, g2, g3, g4⟩
      · rw [if_neg ha] at hstep ⊢
        obtain ⟨t, tp, rfl, ht, hb⟩ := h1
        rw [M.bind_ok (tokInit_run _ _ _ _)]
        exact ⟨1, _, .one hstep, ⟨⟨_, t, tp, rfl, ht, hb⟩, .inl (past_same hav rfl),
          step_inv hi hstep⟩, rfl, rfl⟩

theorem Past.all_of_not_skips (h : Past S e mask A)
    (h1 : A.state ∉ [STMState.PITAG, .ENTITYLC, .COMSEEKE, .CDATA1] ∨ A.tok.id ≠ .Start)
    (h2 : ∀ isTok arg, ¬ Skips mask A.state isTok arg) : ∀ i, i < A.src → S.av i := by
  rcases h with (h | ⟨-, h3, h4⟩) | ⟨-, ⟨isTok, arg, h3⟩, -⟩
  · exact h
  · rcases h1 with h1 | h1
    · exact absurd h3 h1
    · exact absurd h4 h1
  · exact absurd h3 (h2 _ _)

theorem loop_noaction : ∀ s ∈ [STMState.PITAG, .ENTITYLC, .COMSEEKE, .CDATA1],
    (stm s).action = none := by decide +kernel

theorem Reads.all (h : Past S e mask A) (hr : Reads mask A.state isTok arg) :
    ∀ i, i < A.src → S.av i := by
  obtain ⟨op, h1, h2, h3⟩ := hr
  refine h.all_of_not_skips (.inl ?_) ?_
  · intro hm
    rw [loop_noaction _ hm] at h1
    cases h1
  · rintro isTok' arg' ⟨op', g1, g2, g3⟩
    rw [h1] at g1
    cases g1
    rw [h3] at g3
    cases g3

theorem parseToken_sim (h : SRel S e mask s A) (hr : Reads mask A.state isTok arg)
    (hd : A.tok.id ≠ .ParsingDone) :
    Sim S e mask n A (Scanner.parseToken n isTok s) (TokQ S e mask A) := by
  obtain ⟨⟨ld, t, tp, rfl, ht, hb⟩, hp, hi⟩ := id h
  unfold Scanner.parseToken
  rw [M.bind_ok (M.get_run _), pos_lift]
  by_cases hs : A.tok.id = .Start
  · rw [if_pos hs]
    have hstep : step e f mask A = _ := step_reads hr (by rw [hs]; simp)
    unfold tokStep at hstep
    simp only [hs] at hstep
    have h1 : (M.modify fun s : Scanner (TextScanner ι) =>
        { s with tokenpos := Reader.getPosition s.src, out := [] }) (lift A t tp)
        = (.ok (), lift { A with tokenpos := A.src, out := [] } t (Reader.getPosition t)) := rfl
    rw [M.bind_ok h1, M.bind_ok (setId_run _ _ _ _)]
    have hp1 : Past0 S e (idTo .ParsingToken { A with tokenpos := A.src, out := [] }) :=
      .inl (Reads.all (A := A) hp hr)
    have := tokenLoop_sim (S := S) (e := e) (mask := mask) (isTok := isTok) (arg := arg) n
      (idTo .ParsingToken { A with tokenpos := A.src, out := [] }) _
      ⟨⟨ld, t, Reader.getPosition t, rfl, ht, fun _ => ht.getPosition', ht.getPosition_wrap⟩, hp1.past,
        step_inv hi hstep⟩ hr rfl
    exact (this.later (.one hstep) (by omega)).mono fun r s' hq => hq.later (.one hstep) rfl
  · rw [if_neg hs]
    by_cases htk : A.tok.id = .ParsingToken
    · rw [if_neg (by simp [htk])]
      exact tokenLoop_sim n A _ h hr htk
    · rw [if_pos htk]
      have hkey : A.tok.id ≠ .ParsingKey := by
        intro hk
        obtain ⟨str, op, ⟨arg', h1, h2, h3⟩, -⟩ := hi.key hk
        obtain ⟨op', h4, h5, h6⟩ := hr
        rw [h1] at h4
        cases h4
        rw [h2] at h5
        cases h5
      have hin : inTok A.tok.id = true := by
        cases hid : A.tok.id <;> simp [hid, inTok] at hs hd hkey ⊢
      refine Sim.bind (recover_sim (isTok := isTok) (arg := arg) ⟨t, tp, rfl, ht, hb⟩ hp hi hr hin htk) ?_
      intro r s3 hq
      cases r with
      | true =>
        obtain ⟨m, B, g1, g2, g3, g4⟩ := hq
        rw [if_pos rfl]
        have := tokenLoop_sim (isTok := isTok) (arg := arg) n B _ g2 (by rw [g4]; exact hr) g3
        exact (this.later g1 (by omega)).mono fun r s' hq => hq.later g1 g4
      | false =>
        obtain ⟨m, A1, B, g1, g2, g3, g4⟩ := hq
        rw [if_neg (by simp)]
        exact ⟨m, A1, B, g1, g2, g3, g4⟩

theorem tokens_any (op : STMAction) : ∀ g ∈ tokenDefs op, g .Any = true := by
  cases op <;> decide +kernel

theorem skipToken_sim (k : Nat) (hany : isTok .Any = true) :
    ∀ (A : Cfg) (s : Scanner (TextScanner ι)), SRel S e mask s A → Skips mask A.state isTok arg →
      A.tok.id ≠ .ParsingDone →
      Sim S e mask k A (Scanner.skipToken isTok k s) fun r s' => r = true ∧ ∃ m B ld,
        Steps e f mask m A B ∧ Held S e ld s' B ∧ Past S e mask B ∧ Inv mask B ∧
        B.state = A.state ∧ B.tok.id ≠ .ParsingDone ∧
        (isTok (cls e f B) || cls e f B = .Amp) = false := by
  induction k with
  | zero =>
    intro A s h hr hid
    exact ⟨0, A, .refl A, fun _ => Nat.le_refl _, fun h => absurd rfl h, fun h => by cases h⟩
  | succ k ih =>
    intro A s h hr hid
    obtain ⟨⟨ld, hh⟩, hp, hi⟩ := h
    obtain ⟨op, hr1, hr2, hr3⟩ := id hr
    have hstep : step e f mask A = if isTok (cls e f A) || cls e f A = .Amp then (none, adv e f A)
        else trans e f (stm A.state) arg A := by
      unfold step
      simp only [hr1, hr2, hr3, if_neg hid, Bool.false_eq_true, if_false]
    unfold Scanner.skipToken
    refine Sim.bind (control_sim hh hp hi) ?_
    rintro _ s1 ⟨rfl, h1⟩
    by_cases hc : (isTok (cls e f A) || cls e f A = .Amp) = true
    · rw [if_pos hc] at hstep ⊢
      refine Sim.bind (skip_sim h1 (Ld.up_ne _) rfl) ?_
      rintro _ s2 h2
      have hp2 : Past S e mask (adv e f A) := by
        obtain ⟨g1, g2⟩ := h1.loaded (Ld.up_ne _)
        rcases g2 with g2 | ⟨g2, g3, -⟩
        · exact .inl (past_adv g2 rfl)
        · refine .inr ⟨⟨g2, A.src, fun i hi => S.av_mono _ _ hi g1, g3, rfl⟩, ⟨_, _, hr⟩, hid⟩
      have := ih (adv e f A) s2 ⟨⟨_, h2⟩, hp2, step_inv hi hstep⟩ hr hid
      refine (this.later (.one hstep) (by omega)).mono ?_
      rintro r s' ⟨rfl, m, B, ld, g1, g2⟩
      exact ⟨rfl, m + 1, B, ld, .cons hstep g1, g2⟩
    · rw [if_neg hc]
      refine Sim.bind (control_sim h1 hp hi) ?_
      rintro _ s2 ⟨rfl, h2⟩
      have hna : cls e f A ≠ .Any := by
        intro ha
        rw [ha, hany] at hc
        exact hc rfl
      rw [if_neg hna]
      exact ⟨rfl, 0, A, _, .refl A, h2, hp, hi, rfl, hid, by simpa using hc⟩

/-! ## Key words -/

theorem keys_chars {st : STMState} {str : List Byte} {op : STMAction} (h : Keys st str op) :
    ∀ c ∈ str, c ≠ 0 ∧ c ≠ 5 := by
  obtain ⟨-, -, -, h⟩ := h
  intro c hc
  cases op <;> simp only [stringDefs, Option.some.injEq, reduceCtorEq] at h <;> subst h <;>
    simp only [List.mem_cons, List.not_mem_nil, or_false] at hc <;> omega

theorem Keys.all {str : List Byte} {op : STMAction} (h : Past S e mask A) (hr : Keys A.state str op) :
    ∀ i, i < A.src → S.av i := by
  obtain ⟨arg, h1, h2, h3⟩ := hr
  refine h.all_of_not_skips (.inl ?_) ?_
  · intro hm
    rw [loop_noaction _ hm] at h1
    cases h1
  · rintro isTok' arg' ⟨op', g1, g2, g3⟩
    rw [h1] at g1
    cases g1
    rw [h2] at g2
    cases g2

theorem step_keys {str : List Byte} {op : STMAction} (h : Keys A.state str op) :
    step e f mask A = keyStep e f (stm A.state) op str A := by
  obtain ⟨arg, h1, h2, h3⟩ := h
  unfold step
  simp only [h1, h2, h3]

theorem expectLoop_sim {str : List Byte} {op : STMAction} (cs : List Byte) :
    ∀ (A : Cfg) (s : Scanner (TextScanner ι)) (ld : Ld), Held S e ld s A → Past S e mask A →
      Inv mask A → Keys A.state str op → A.tok.id = .ParsingKey → A.tok.pos ≤ str.length →
      cs = str.drop A.tok.pos →
      Sim S e mask n A (Scanner.expectLoop cs s) fun r s' =>
        if r then ∃ m B, Steps e f mask m A B ∧ SRel S e mask s' B ∧ B.tok.id = .ParsingKey ∧
          B.tok.pos = str.length ∧ B.state = A.state
        else ∃ m A1 B, Steps e f mask m A A1 ∧ step e f mask A1 = (some .ErrorOccurred, B) ∧
          SRel S e mask (initS .ParsingDone s') B ∧ Past0 S e B := by
  induction cs with
  | nil =>
    intro A s ld hh hp hi hk hid hle hcs
    have : str.length ≤ A.tok.pos := by
      have := congrArg List.length hcs
      simp only [List.length_nil, List.length_drop] at this
      omega
    exact ⟨0, A, .refl A, ⟨⟨ld, hh⟩, hp, hi⟩, hid, by omega, rfl⟩
  | cons c cs ih =>
    intro A s ld hh hp hi hk hid hle hcs
    have hc : str[A.tok.pos]? = some c := by
      have := congrArg (fun l => l[0]?) hcs
      simp only [List.getElem?_cons_zero, List.getElem?_drop, Nat.add_zero] at this
      exact this.symm
    have hlt : A.tok.pos < str.length := by
      apply Decidable.byContradiction
      intro hge
      rw [List.getElem?_eq_none (by omega)] at hc
      cases hc
    have hstep : step e f mask A = _ := step_keys hk
    unfold keyStep at hstep
    simp only [hc] at hstep
    rw [if_neg (by rw [hid]; simp)] at hstep
    unfold Scanner.expectLoop
    refine Sim.bind (ascii_sim hh hp hi) ?_
    rintro _ s1 ⟨rfl, h1⟩
    have hav := (h1.loaded (Ld.up_ne _)).1
    by_cases ha : asc e f A = c
    · rw [if_pos ha] at hstep ⊢
      refine Sim.bind (skip_sim h1 (Ld.up_ne _) rfl) ?_
      rintro _ s2 h2
      obtain ⟨t, tp, rfl, ht, hb⟩ := h2
      rw [M.bind_ok (incPos_run _ _ _)]
      have hc05 := keys_chars hk c (List.mem_of_getElem? hc)
      have hp2 : Past0 S e (tokTo (fun t => { t with id := .ParsingKey, pos := t.pos + 1 }) (adv e f A)) :=
        past_adv (A := A) (h1.all (Ld.up_ne _)
          (.inr (asc_cls (by rw [ha]; exact hc05.1) (by rw [ha]; exact hc05.2)))) rfl
      have hcs2 : cs = str.drop (A.tok.pos + 1) := by
        rw [← List.drop_drop, ← hcs]; rfl
      have := ih (tokTo (fun t => { t with id := .ParsingKey, pos := t.pos + 1 }) (adv e f A)) _ .no
        ⟨t, tp, by
          show lift (tokTo (fun t => { t with pos := t.pos + 1 }) (adv e f A)) t tp = _
          simp [lift, tokTo, adv, hid], ht, hb⟩ hp2.past (step_inv hi hstep) hk rfl hlt hcs2
      refine (this.later (n := n) (.one hstep) (by omega)).mono ?_
      intro r s' hq
      cases r with
      | true =>
        obtain ⟨m, B, g1, g2⟩ := hq
        exact ⟨m + 1, B, .cons hstep g1, g2⟩
      | false =>
        obtain ⟨m, A1, B, g1, g2⟩ := hq
        exact ⟨m + 1, A1, B, .cons hstep g1, g2⟩
    · rw [if_neg ha] at hstep ⊢
      refine Sim.bind (control_sim h1 hp hi) ?_
      rintro _ s2 ⟨rfl, h2⟩
      obtain ⟨t, tp, rfl, ht, hb⟩ := h2
      exact ⟨0, A, _, .refl A, hstep, ⟨⟨_, t, tp, rfl, ht, hb⟩, .inl (past_same hav rfl),
        (step_ret hi hstep).inv mask⟩, past_same hav rfl⟩

/-- A configuration with the same future can be replaced. -/
theorem Sim.same {α : Type} {r : Res α × Scanner (TextScanner ι)}
    {Q : α → Scanner (TextScanner ι) → Prop} (hs : Same e f mask A B)
    (hst : B.state = A.state) (h : Sim S e mask n B r Q) : Sim S e mask n A r Q := by
  rcases r with ⟨r, c'⟩
  cases r with
  | ok a => exact h
  | stop er =>
    obtain ⟨m', A', h1, h2, h3, h4⟩ := h
    cases h1 with
    | refl =>
      refine ⟨0, A, .refl A, h2, fun h => ?_, fun h => ?_⟩
      · have := h3 h
        unfold Lack at this
        rw [hs.1, hst] at this
        exact this
      · obtain ⟨A'', g1, g2, g3⟩ := h4 h
        rw [hs.1] at g3
        exact ⟨A'', ⟨g1.1.trans hs.1, g1.2.trans hs.2⟩, g2, g3⟩
    | cons h0 h1 => exact ⟨_, A', .cons (hs.2 ▸ h0) h1, h2, h3, h4⟩

/-- Result of one iteration of the loop of `nextItem`. -/
def BodyQ (S : Source ι f) (e : Enc) (mask : Nat) (A : Cfg) (r : Option ElementType)
    (s : Scanner (TextScanner ι)) : Prop :=
  ∃ m A1 B, Steps e f mask m A A1 ∧ step e f mask A1 = (r, B) ∧ SRel S e mask s B ∧
    (r ≠ none → Past0 S e B)

theorem BodyQ.later {m : Nat} {r : Option ElementType} (h : Steps e f mask m A B)
    (hq : BodyQ S e mask B r s) : BodyQ S e mask A r s := by
  obtain ⟨m', A1, C, h1, h2⟩ := hq
  exact ⟨m + m', A1, C, h.trans h1, h2⟩

theorem BodyQ.same {r : Option ElementType} (h : Same e f mask A B)
    (hq : BodyQ S e mask B r s) : BodyQ S e mask A r s := by
  obtain ⟨m', A1, C, h1, h2, h3⟩ := hq
  cases h1 with
  | refl => exact ⟨0, A, C, .refl A, by rw [← h.2]; exact h2, h3⟩
  | cons h0 h1 => exact ⟨_, A1, C, .cons (h.2 ▸ h0) h1, h2, h3⟩

theorem next_undef : ∀ st ∈ STMState.all, ∀ ns ∈ (stm st).next .Undef,
    ns ∈ [STMState.PITAG, .ENTITYLC, .COMSEEKE, .CDATA1] := by decide +kernel

theorem transition_sim {rt : ElementType} (hh : Held S e ld s A) (hp : Past S e mask A)
    (hi : Inv mask A) (hst : step e f mask A = trans e f (stm A.state) rt A)
    (hx : A.state ≠ .EXIT := by live) :
    Sim S e mask n A (Scanner.transition (stm A.state) rt s) (BodyQ S e mask A) := by
  unfold Scanner.transition
  refine Sim.bind (control_sim hh hp hi) ?_
  rintro _ s1 ⟨rfl, h1⟩
  have hav := (h1.loaded (Ld.up_ne _)).1
  unfold Mach.trans at hst
  simp only at hst
  have fin : ∀ {r : Option ElementType} {s' : Scanner (TextScanner ι)} {B : Cfg},
      step e f mask A = (r, B) → (∃ ld, Held S e ld s' B) → Past0 S e B → BodyQ S e mask A r s' := by
    intro r s' B h2 h3 h4
    refine ⟨0, A, B, .refl A, h2, ⟨h3, h4.past, ?_⟩, fun _ => h4⟩
    cases r with
    | none => exact step_inv hi h2
    | some r => exact (step_ret hi h2).inv mask
  obtain ⟨t, tp, rfl, ht, hb⟩ := id h1
  rw [M.bind_ok (setId_run _ _ _ _)]
  cases hn : (stm A.state).next (cls e f A) with
  | some ns =>
    simp only [hn] at hst ⊢
    have hrun : Scanner.setState ns (lift (idTo .Start A) t tp)
      = (.ok (), lift { idTo .Start A with state := ns } t tp) := rfl
    rw [M.bind_ok hrun]
    have hh2 : Held S e ld.up (lift { idTo .Start A with state := ns } t tp)
      { idTo .Start A with state := ns } := ⟨t, tp, rfl, ht, hb⟩
    refine Sim.bind (skip_sim hh2 (Ld.up_ne _) rfl) ?_
    rintro _ s2 h2
    refine fin hst ⟨_, h2⟩ ?_
    by_cases hu : cls e f A = .Undef
    · obtain ⟨g1, g2⟩ := h1.loaded (Ld.up_ne _)
      rcases g2 with g2 | ⟨g2, g3, -⟩
      · exact past_adv g2 rfl
      · rw [hu] at hn
        exact .inr ⟨⟨g2, A.src, fun i hi => S.av_mono _ _ hi g1, g3, rfl⟩,
          next_undef _ (STMState.mem_all _) _ hn, rfl⟩
    · exact past_adv (h1.all (Ld.up_ne _) (.inr hu)) rfl
  | none =>
    simp only [hn] at hst ⊢
    cases hf : (stm A.state).fallback with
    | some fb =>
      simp only [hf] at hst ⊢
      exact fin hst ⟨_, t, tp, rfl, ht, hb⟩ (past_same hav rfl)
    | none =>
      simp only [hf] at hst ⊢
      cases hm : (stm A.state).miss with
      | some er =>
        simp only [hm] at hst ⊢
        exact fin hst ⟨_, t, tp, rfl, ht, hb⟩ (past_same hav rfl)
      | none =>
        simp only [hm] at hst ⊢
        exact fin hst ⟨_, t, tp, rfl, ht, hb⟩ (past_same hav rfl)

theorem nofnext_pos : ∀ st ∈ STMState.all, ∀ a ∈ (stm st).action,
    (tokenDefs a.1).isSome ∨ (stringDefs a.1).isSome → (stm st).nofnext ≠ 0 := by decide +kernel

theorem body_sim (h : SRel S e mask s A) :
    Sim S e mask n A (Scanner.body n mask s) (BodyQ S e mask A) := by
  obtain ⟨⟨ld, t, tp, rfl, ht, hb⟩, hp, hi⟩ := id h
  have hh : Held S e ld (lift A t tp) A := ⟨t, tp, rfl, ht, hb⟩
  have hmem := STMState.mem_all A.state
  unfold Scanner.body
  rw [M.bind_ok (M.get_run _)]
  have hst : (lift A t tp).state = A.state := rfl
  simp only [hst]
  cases ha : (stm A.state).action with
  | none =>
    simp only
    have hx : A.state ≠ .EXIT := by
      intro hx
      rw [hx, exit_action] at ha
      cases ha
    refine transition_sim hh hp hi ?_
    unfold step
    simp only [ha]
  | some oa =>
    obtain ⟨op, arg⟩ := oa
    simp only
    have hlive : (stm A.state).nofnext ≠ 0 → A.state ≠ .EXIT := by
      intro h0 hx
      rw [hx] at h0
      exact h0 (by decide +kernel)
    unfold Scanner.action
    cases htd : tokenDefs op with
    | some isTok =>
      have hnf : (stm A.state).nofnext ≠ 0 :=
        nofnext_pos _ hmem (op, arg) ha (.inl (by rw [htd]; rfl))
      have hx := hlive hnf
      simp only [if_neg hnf]
      simp only [M.bind_assoc]
      rw [M.bind_ok (M.get_run _), pos_lift]
      by_cases hd : A.tok.id = .ParsingDone
      · rw [if_neg (by simp [hd])]
        have hstep : step e f mask A = trans e f (stm A.state) arg A := by
          unfold step
          simp only [ha, htd, if_pos hd]
        exact transition_sim hh hp hi hstep
      · rw [if_pos hd]
        by_cases hm : mask.testBit arg.toNat = true
        · rw [if_pos hm]
          have hr : Reads mask A.state isTok arg := ⟨op, ha, htd, hm⟩
          simp only [M.bind_assoc]
          refine Sim.bind (parseToken_sim h hr hd) ?_
          intro r s1 hq
          cases r with
          | true =>
            obtain ⟨m, B, g1, ⟨⟨ld', g2⟩, g3, g4⟩, g5, g6⟩ := hq
            simp only [if_true]
            have hstep : step e f mask B = trans e f (stm B.state) arg B := by
              unfold step
              simp only [g6, ha, htd, if_pos g5]
            have := transition_sim (n := n) g2 g3 g4 hstep (by rw [g6]; exact hx)
            rw [g6] at this
            exact (this.later g1 (by omega)).mono fun r s' hq => hq.later g1
          | false =>
            obtain ⟨m, A1, B, g1, g2, g3, g4⟩ := hq
            exact ⟨m, A1, B, g1, g2, g3, fun _ => g4⟩
        · rw [if_neg hm]
          have hr : Skips mask A.state isTok arg := ⟨op, ha, htd, by simpa using hm⟩
          simp only [M.bind_assoc]
          have hany : isTok .Any = true := tokens_any op _ htd
          refine Sim.bind (skipToken_sim n hany A _ h hr hd) ?_
          rintro _ s1 ⟨rfl, m, B, ld', g1, g2, g3, g4, g5, g6, g7⟩
          simp only [if_true]
          have hstep : step e f mask B = trans e f (stm B.state) arg B := by
            unfold step
            simp only [g5, ha, htd, if_neg g6, hm, if_false, g7, Bool.false_eq_true]
          have := transition_sim (n := n) g2 g3 g4 hstep (by rw [g5]; exact hx)
          rw [g5] at this
          exact (this.later g1 (by omega)).mono fun r s' hq => hq.later g1
    | none =>
      cases hsd : stringDefs op with
      | some str =>
        have hnf : (stm A.state).nofnext ≠ 0 :=
          nofnext_pos _ hmem (op, arg) ha (.inr (by rw [hsd]; rfl))
        have hk : Keys A.state str op := ⟨arg, ha, htd, hsd⟩
        have hx := hlive hnf
        simp only [if_neg hnf]
        simp only [M.bind_assoc]
        rw [M.bind_ok (M.get_run _), pos_lift]
        by_cases hd : A.tok.id = .ParsingDone
        · rw [if_neg (by simp [hd])]
          have hstep : step e f mask A = trans e f (stm A.state)
              (if op = .ExpectIdentifierXML then .HeaderStart else .None) A := by
            rw [step_keys hk]
            unfold keyStep
            simp only [if_pos hd]
          split <;> rename_i ho
          · rw [if_pos ho] at hstep; exact transition_sim hh hp hi hstep
          · rw [if_neg ho] at hstep; exact transition_sim hh hp hi hstep
        · rw [if_pos hd]
          have hnr : ∀ isTok arg, ¬ Reads mask A.state isTok arg := by
            rintro isTok arg ⟨op', h1, h2, -⟩; rw [ha] at h1; cases h1; rw [htd] at h2; cases h2
          have hin := hi.notReads hnr
          have hpos : A.tok.pos ≤ str.length := by
            by_cases hkid : A.tok.id = .ParsingKey
            · obtain ⟨str', op', ⟨arg', h1, h2, h3⟩, h4⟩ := hi.key hkid
              rw [ha] at h1; cases h1; rw [hsd] at h3; cases h3; exact h4
            · have := (hi.idle hin hkid).pos
              omega
          have hi1 : Inv mask (idTo .ParsingKey A) :=
            ⟨hi.buf, hi.pos, hi.base, fun h => by simp [idTo, tokTo, hasPos] at h,
              fun _ => ⟨str, op, hk, hpos⟩, fun h => by simp [idTo, tokTo, inTok] at h, hi.val,
              fun _ => hi.cr hin⟩
          have hsame : Same e f mask A (idTo .ParsingKey A) := by
            refine ⟨rfl, ?_⟩
            rw [step_keys hk, step_keys (A := idTo .ParsingKey A) hk]
            unfold keyStep
            simp only
            rw [if_neg hd, if_neg (by simp [idTo, tokTo])]
            rfl
          have hp1 : Past S e mask (idTo .ParsingKey A) := .inl (.inl (Keys.all (A := A) hp hk))
          unfold Scanner.expectStr
          simp only [M.bind_assoc]
          rw [M.bind_ok (setId_run _ _ _ _), M.bind_ok (M.get_run _), pos_lift]
          rw [if_neg (show ¬ str.length < (idTo .ParsingKey A).tok.pos from by
            show ¬ str.length < A.tok.pos; omega)]
          simp only [M.bind_assoc]
          refine Sim.mono (Q := BodyQ S e mask (idTo .ParsingKey A)) (Sim.same hsame rfl ?_)
            fun r s' hq => hq.same hsame
          refine Sim.bind (expectLoop_sim (str := str) (op := op) _ (idTo .ParsingKey A) _ ld
            ⟨t, tp, rfl, ht, hb⟩ hp1 hi1 hk rfl hpos rfl) ?_
          intro r s1 hq
          cases r with
          | true =>
            obtain ⟨m, B, g1, ⟨⟨ld', t2, tp2, rfl, ht2, hb2⟩, g3, g4⟩, g5, g6, g7⟩ := hq
            rw [M.bind_ok (tokInit_run _ _ _ _)]
            simp only [M.pure_bind, if_true]
            have hkB : Keys B.state str op := by rw [g7]; exact hk
            have hstep : step e f mask B = (none, (if op = .ExpectIdentifierXML then
                pushes [63, 120, 109, 108] else id) (initTok .ParsingDone B)) := by
              rw [step_keys hkB]
              unfold keyStep
              simp only
              rw [if_neg (by rw [g5]; simp), g6, List.getElem?_eq_none (Nat.le_refl _)]
            have hi2 := step_inv g4 hstep
            have hall := Keys.all g3 hkB
            by_cases ho : op = .ExpectIdentifierXML
            · rw [if_pos ho] at hstep hi2 ⊢
              simp only [M.bind_assoc]
              rw [M.bind_ok (push_run _ _ _ _), M.bind_ok (push_run _ _ _ _),
                M.bind_ok (push_run _ _ _ _), M.bind_ok (push_run _ _ _ _)]
              simp only [M.pure_bind]
              have hstep2 : step e f mask (pushes [63, 120, 109, 108] (initTok .ParsingDone B))
                  = trans e f (stm B.state) .HeaderStart
                    (pushes [63, 120, 109, 108] (initTok .ParsingDone B)) := by
                rw [step_keys (A := pushes [63, 120, 109, 108] (initTok .ParsingDone B)) hkB]
                unfold keyStep
                simp only
                rw [if_pos (show (pushes [63, 120, 109, 108] (initTok .ParsingDone B)).tok.id = .ParsingDone
                  from rfl), if_pos ho]
                rfl
              have := transition_sim (S := S) (n := n) (ld := ld')
                (s := lift (pushes [63, 120, 109, 108] (initTok .ParsingDone B)) t2 tp2)
                ⟨t2, tp2, rfl, ht2, hb2⟩ (.inl (.inl hall)) hi2 hstep2
              have hout : pushes [108] (pushes [109] (pushes [120] (pushes [63] (initTok .ParsingDone B))))
                  = pushes [63, 120, 109, 108] (initTok .ParsingDone B) := by
                simp [pushes]
              rw [hout]
              have hstate : (pushes [63, 120, 109, 108] (initTok .ParsingDone B)).state = A.state := g7
              rw [hstate] at this
              exact (this.later (n := n) (g1.snoc hstep) (by omega)).mono
                fun r s' hq => hq.later (g1.snoc hstep)
            · rw [if_neg ho] at hstep hi2 ⊢
              simp only [M.pure_bind]
              have hstep2 : step e f mask (initTok .ParsingDone B)
                  = trans e f (stm B.state) .None (initTok .ParsingDone B) := by
                rw [step_keys (A := initTok .ParsingDone B) hkB]
                unfold keyStep
                simp only
                rw [if_pos (show (initTok .ParsingDone B).tok.id = .ParsingDone from rfl), if_neg ho]
                rfl
              have := transition_sim (S := S) (n := n) (ld := ld')
                (s := lift (initTok .ParsingDone B) t2 tp2)
                ⟨t2, tp2, rfl, ht2, hb2⟩ (.inl (.inl hall)) hi2 hstep2
              have hstate : (initTok .ParsingDone B).state = A.state := g7
              rw [hstate] at this
              exact (this.later (n := n) (g1.snoc hstep) (by omega)).mono
                fun r s' hq => hq.later (g1.snoc hstep)
          | false =>
            obtain ⟨m, A1, B, g1, g2, g3, g4⟩ := hq
            exact ⟨m, A1, B, g1, g2, g3, fun _ => g4⟩
      | none =>
        have hnr : ∀ isTok arg, ¬ Reads mask A.state isTok arg := by
          rintro isTok arg ⟨op', h1, h2, -⟩; rw [ha] at h1; cases h1; rw [htd] at h2; cases h2
        have hns : ∀ isTok arg, ¬ Skips mask A.state isTok arg := by
          rintro isTok arg ⟨op', h1, h2, -⟩; rw [ha] at h1; cases h1; rw [htd] at h2; cases h2
        have hall := hp.all_of_not_skips (.inl (by
          intro hm; rw [loop_noaction _ hm] at ha; cases ha)) hns
        have hk : A.tok.id ≠ .ParsingKey := by
          intro hk; obtain ⟨_, _, ⟨_, h1, h2, h3⟩, _⟩ := hi.key hk; rw [ha] at h1; cases h1
          rw [hsd] at h3; cases h3
        have h0 := hi.idle (hi.notReads hnr) hk
        have h1 : (M.modify fun s : Scanner (TextScanner ι) =>
            { s with tokenpos := Reader.getPosition s.src, out := [] }) (lift A t tp)
            = (.ok (), lift { A with tokenpos := A.src, out := [] } t (Reader.getPosition t)) := rfl
        simp only [M.bind_assoc]
        rw [M.bind_ok h1, M.pure_bind]
        simp only
        have hh1 : Held S e ld (lift { A with tokenpos := A.src, out := [] } t (Reader.getPosition t))
            { A with tokenpos := A.src, out := [] } := ⟨t, _, rfl, ht, fun _ => ht.getPosition', ht.getPosition_wrap⟩
        by_cases hnf : (stm A.state).nofnext = 0
        · rw [if_pos hnf]
          have hstep : step e f mask A = (some arg, match (stm A.state).fallback with
              | some fb => { A with tokenpos := A.src, out := [], state := fb }
              | none => { A with tokenpos := A.src, out := [] }) := by
            unfold step
            simp only [ha, htd, hsd, if_pos hnf]
            cases (stm A.state).fallback <;> rfl
          cases hf : (stm A.state).fallback with
          | some fb =>
            simp only [hf] at hstep ⊢
            exact ⟨0, A, _, .refl A, hstep, ⟨⟨ld, t, _, rfl, ht, fun _ => ht.getPosition', ht.getPosition_wrap⟩,
              .inl (.inl hall), (step_ret hi hstep).inv mask⟩, fun _ => .inl hall⟩
          | none =>
            simp only [hf] at hstep ⊢
            exact ⟨0, A, _, .refl A, hstep, ⟨⟨ld, t, _, rfl, ht, fun _ => ht.getPosition', ht.getPosition_wrap⟩,
              .inl (.inl hall), (step_ret hi hstep).inv mask⟩, fun _ => .inl hall⟩
        · rw [if_neg hnf]
          have hx := hlive hnf
          have hstep : ∀ C : Cfg, C.state = A.state → step e f mask C = trans e f (stm A.state) arg
              { C with tokenpos := C.src, out := [] } := by
            intro C hC
            unfold step
            simp only [hC, ha, htd, hsd, if_neg hnf]
          have hsame : Same e f mask A { A with tokenpos := A.src, out := [] } := by
            refine ⟨rfl, ?_⟩
            exact (hstep { A with tokenpos := A.src, out := [] } rfl).trans (hstep A rfl).symm
          refine Sim.mono (Q := BodyQ S e mask { A with tokenpos := A.src, out := [] })
            (Sim.same hsame rfl ?_) fun r s' hq => hq.same hsame
          exact transition_sim hh1 (.inl (.inl hall))
            ((⟨h0.buf, h0.pos, h0.base, h0.id, h0.val, h0.cr⟩ :
              Inv0 { A with tokenpos := A.src, out := [] }).inv mask) (hstep _ rfl)

/-- Result of `nextItem`. -/
def ItemQ (S : Source ι f) (e : Enc) (mask : Nat) (A : Cfg) (r : ElementType)
    (s : Scanner (TextScanner ι)) : Prop :=
  ∃ m A1 B, Steps e f mask m A A1 ∧ step e f mask A1 = (some r, B) ∧
    (∃ ld, Held S e ld s B) ∧ Past0 S e B ∧ Inv0 B

theorem itemLoop_sim (k : Nat) : ∀ (A : Cfg) (s : Scanner (TextScanner ι)), k ≤ n → SRel S e mask s A →
    Sim S e mask k A (Scanner.itemLoop n mask k s) (ItemQ S e mask A) := by
  induction k with
  | zero =>
    intro A s _ h
    exact ⟨0, A, .refl A, fun _ => Nat.le_refl _, fun h => absurd rfl h, fun h => by cases h⟩
  | succ k ih =>
    intro A s hkn h
    unfold Scanner.itemLoop
    refine Sim.bind ((body_sim (n := n) h).later (.refl A) (by omega)) ?_
    rintro r s1 ⟨m, A1, B, g1, g2, g3, g4⟩
    cases r with
    | some r =>
      have hinv : Inv mask A1 := by
        clear g2 g3 g4
        have : ∀ {m A1 A}, Steps e f mask m A A1 → Inv mask A → Inv mask A1 := by
          intro m A1 A hs
          induction hs with
          | refl => exact id
          | cons h1 _ ih => exact fun h => ih (step_inv h h1)
        exact this g1 h.inv
      exact ⟨m, A1, B, g1, g2, g3.held, g4 (by simp), step_ret hinv g2⟩
    | none =>
      have := ih B s1 (by omega) g3
      refine (this.later (g1.snoc g2) (by omega)).mono ?_
      rintro r s' ⟨m', A1', B', h1, h2⟩
      exact ⟨_, A1', B', (g1.snoc g2).trans h1, h2⟩

/-- `nextItem` with fuel `n` runs the machine. -/
theorem nextItem_sim (h : SRel S e mask s A) :
    Sim S e mask n A (Scanner.nextItem n mask s) (ItemQ S e mask A) :=
  itemLoop_sim n A s (Nat.le_refl _) h

end TW
