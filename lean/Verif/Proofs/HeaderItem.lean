import Verif.Proofs.ItemOrder

/-!
# The text of the item for the header, for any source
-/

namespace TW.ItemOrder

open Spec.Order

variable {ρ : Type}

/-- The name of the header, any number of times. -/
def Rep (e : Enc) (bs : List Byte) : Prop :=
  ∃ k, bs = (List.replicate k (e.print 63 ++ e.print 120 ++ e.print 109 ++ e.print 108)).flatten

/-- The states before the header. -/
def early : STMState → Bool
  | .START | .STARTTAG | .XTAG => true
  | _ => false

/-- Before the header the output buffer has nothing but names of headers. -/
def Head (e : Enc) (s : Scanner ρ) : Prop := s.output = e ∧ (early s.state = true → Rep e s.out)

theorem Rep.more {e : Enc} {bs : List Byte} (h : Rep e bs) :
    Rep e (bs ++ e.print 63 ++ e.print 120 ++ e.print 109 ++ e.print 108) := by
  obtain ⟨k, rfl⟩ := h
  exact ⟨k + 1, by rw [List.replicate_succ', List.flatten_append]; simp⟩

/-- The operation leaves the output buffer as it is. -/
def Quiets {α : Type} (x : M (Scanner ρ) α) : Prop := ∀ s, (x s).2.out = s.out

theorem Quiets.bind {α β : Type} {x : M (Scanner ρ) α} {f : α → M (Scanner ρ) β} (h : Quiets x) (k : ∀ a, Quiets (f a)) :
    Quiets (x >>= f) := by
  intro s
  have h := h s
  cases hx : x s with
  | mk r s' =>
    rw [hx] at h
    cases r with
    | ok a => rw [M.bind_ok hx]; exact (k a s').trans h
    | stop e => rw [M.bind_stop hx]; exact h

variable [Reader ρ]

theorem Quiets.expectLoop : ∀ cs, Quiets (Scanner.expectLoop (ρ := ρ) cs)
  | [] => fun _ => rfl
  | _ :: cs => .bind (fun _ => rfl) fun a => by
      split
      · exact .bind (fun _ => rfl) fun _ => .bind (fun _ => rfl) fun _ => Quiets.expectLoop cs
      · exact .bind (fun _ => rfl) fun _ => .bind (fun _ => rfl) fun _ => fun _ => rfl

theorem Quiets.expectStr (str : List Byte) : Quiets (Scanner.expectStr (ρ := ρ) str) :=
  .bind (fun _ => rfl) fun _ => .bind (fun _ => rfl) fun _ => by
    split
    · exact fun _ => rfl
    · exact .bind (.expectLoop _) fun _ => .bind (fun _ => rfl) fun _ => fun _ => rfl

/-- The table leads to states before the header only from such states. -/
theorem table_early (st : STMState) : (∀ c ns, (stm st).next c = some ns → early ns = true → early st = true) ∧
    (∀ fb, (stm st).fallback = some fb → early fb = true → early st = true) := by
  have h : (STMState.all.all fun st => (Cc.all.all fun c => ((stm st).next c).all fun ns => !early ns || early st) &&
      (stm st).fallback.all fun fb => !early fb || early st) = true := by decide +kernel
  have h1 := List.all_eq_true.1 h st (STMState.mem_all st)
  rw [Bool.and_eq_true] at h1
  refine ⟨fun c ns hn he => ?_, fun fb hf he => ?_⟩
  · have := List.all_eq_true.1 h1.1 c (Cc.mem_all c)
    rw [hn] at this
    simpa [he] using this
  · have := h1.2
    rw [hf] at this
    simpa [he] using this

/-- A transition leaves the output as it is; before the header it came from a state before the header. -/
theorem transition_head {st : STMState} {t : ElementType} {s : Scanner ρ} (hs : s.state = st) :
    (Scanner.transition (stm st) t s).2.out = s.out ∧ (Scanner.transition (stm st) t s).2.output = s.output ∧
      (early (Scanner.transition (stm st) t s).2.state = true → early st = true) := by
  unfold Scanner.transition
  cases h1 : Scanner.control s with
  | mk r s1 =>
    have g1 : s1.out = s.out ∧ s1.output = s.output ∧ s1.state = st := by
      unfold Scanner.control Scanner.onSrc at h1
      cases hr : (Reader.control s.src : Res Cc × ρ) with
      | mk r' src => rw [hr] at h1; cases h1; exact ⟨rfl, rfl, hs⟩
    cases r with
    | stop er => rw [M.bind_stop h1]; exact ⟨g1.1, g1.2.1, fun h => by rw [← g1.2.2]; exact h⟩
    | ok c =>
      rw [M.bind_ok h1]
      have h2 : Scanner.setId (ρ := ρ) .Start s1 = (.ok (), { s1 with tok := { s1.tok with id := .Start } }) := rfl
      rw [M.bind_ok h2]
      cases h3 : (stm st).next c with
      | some ns =>
        simp only
        have h4 : ∀ s2, Scanner.setState (ρ := ρ) ns s2 = (.ok (), { s2 with state := ns }) := fun _ => rfl
        rw [M.bind_ok (h4 _)]
        generalize hs3 : ({ ({ s1 with tok := { s1.tok with id := .Start } } : Scanner ρ) with state := ns } : Scanner ρ) = s3
        have g3 : s3.out = s.out ∧ s3.output = s.output ∧ s3.state = ns := by rw [← hs3]; exact ⟨g1.1, g1.2.1, rfl⟩
        cases h5 : Scanner.skip s3 with
        | mk r4 s4 =>
          have g4 : s4.out = s.out ∧ s4.output = s.output ∧ s4.state = ns := by
            unfold Scanner.skip Scanner.onSrc at h5
            cases hr : (Reader.skip s3.src : Res Unit × ρ) with
            | mk r' src => rw [hr] at h5; cases h5; exact g3
          have g5 := (table_early st).1 _ _ h3
          cases r4 with
          | stop er => rw [M.bind_stop h5]; exact ⟨g4.1, g4.2.1, fun h => g5 (by rw [← g4.2.2]; exact h)⟩
          | ok _ => rw [M.bind_ok h5]; exact ⟨g4.1, g4.2.1, fun h => g5 (by rw [← g4.2.2]; exact h)⟩
      | none =>
        simp only
        cases h6 : (stm st).fallback with
        | some fb => exact ⟨g1.1, g1.2.1, (table_early st).2 _ h6⟩
        | none =>
          simp only
          cases h7 : (stm st).miss with
          | some e => exact ⟨g1.1, g1.2.1, fun h => by rw [← g1.2.2]; exact h⟩
          | none => exact ⟨g1.1, g1.2.1, fun h => by rw [← g1.2.2]; exact h⟩

/-- The action before the header. -/
theorem action_head {e : Enc} {n mask : Nat} {s : Scanner ρ} (ho : s.output = e) (hr : Rep e s.out) :
    Rep e (Scanner.action n mask .ExpectIdentifierXML .None s).2.out := by
  show Rep e (((M.get : M (Scanner ρ) (Scanner ρ)) >>= fun s' => if s'.tok.id ≠ .ParsingDone then
      (Scanner.expectStr (ascii "xml") >>= fun r => if r = true then
        (do Scanner.push 63; Scanner.push 120; Scanner.push 109; Scanner.push 108; pure (some ElementType.HeaderStart)) else pure none)
      else pure (some .HeaderStart)) s).2.out
  rw [M.bind_ok (M.get_run s)]
  split
  · have hq := Quiets.expectStr (ρ := ρ) (ascii "xml") s
    have hf := (Fixed.expectStr (ρ := ρ) (ascii "xml")).output s
    cases hx : Scanner.expectStr (ascii "xml") s with
    | mk r s1 =>
      rw [hx] at hq hf
      simp only at hq hf
      cases r with
      | stop er => rw [M.bind_stop hx]; show Rep e s1.out; rw [hq]; exact hr
      | ok b =>
        rw [M.bind_ok hx]
        split
        · show Rep e (s1.out ++ s1.output.print 63 ++ s1.output.print 120 ++ s1.output.print 109 ++ s1.output.print 108)
          rw [hq, hf, ho]
          exact hr.more
        · show Rep e s1.out
          rw [hq]
          exact hr
  · exact hr

theorem body_head {e : Enc} {n mask : Nat} {s : Scanner ρ} (h : Head e s) :
    Head e (Scanner.body n mask s).2 ∧
      ((Scanner.body n mask s).1 = .ok (some .HeaderStart) → Rep e (Scanner.body n mask s).2.out) := by
  unfold Scanner.body
  rw [M.bind_ok (M.get_run s)]
  cases ha : (stm s.state).action with
  | none =>
    simp only
    have h1 := transition_head (t := .None) (s := s) rfl
    refine ⟨⟨h1.2.1.trans h.1, fun k => ?_⟩, fun k => ?_⟩
    · rw [h1.1]; exact h.2 (h1.2.2 k)
    · exfalso
      cases hx : Scanner.transition (stm s.state) .None s with
      | mk r s1 =>
        rw [hx] at k
        simp only at k
        subst k
        rcases transition_res hx with h | h <;> cases h
  | some oa =>
    obtain ⟨op, arg⟩ := oa
    simp only
    have hx : early s.state = true → s.state = .XTAG := by
      revert ha
      cases s.state <;> intro ha he <;> first | rfl | (cases he; done) | (cases ha; done)
    have hx' : s.state = .XTAG → op = .ExpectIdentifierXML ∧ arg = .None := by
      intro hs
      rw [hs] at ha
      cases ha
      exact ⟨rfl, rfl⟩
    have hout : (Scanner.action n mask op arg s).2.output = e := ((Fixed.action n mask op arg).output s).trans h.1
    have hst : (Scanner.action n mask op arg s).2.state = s.state := (Fixed.action n mask op arg).state s
    have hrep : s.state = .XTAG → Rep e (Scanner.action n mask op arg s).2.out := by
      intro hs
      obtain ⟨rfl, rfl⟩ := hx' hs
      exact action_head h.1 (h.2 (by rw [hs]; rfl))
    have hgive : gives s.state = .HeaderStart → s.state = .XTAG := by
      cases s.state <;> decide
    cases h1 : Scanner.action n mask op arg s with
    | mk r s1 =>
      rw [h1] at hout hst hrep
      simp only at hout hst hrep
      cases r with
      | stop er =>
        rw [M.bind_stop h1]
        exact ⟨⟨hout, fun k => hrep (hx (by rw [← hst]; exact k))⟩, fun k => by cases k⟩
      | ok r =>
        rw [M.bind_ok h1]
        cases r with
        | none => exact ⟨⟨hout, fun k => hrep (hx (by rw [← hst]; exact k))⟩, fun k => by cases k⟩
        | some t =>
          have ht := action_gives ha h1
          simp only
          split
          · rename_i h0
            have hne : s.state ≠ .XTAG := by
              intro hs
              rw [hs] at h0
              exact absurd h0 (by decide)
            cases hfb : (stm s.state).fallback with
            | some fb =>
              refine ⟨⟨hout, fun k => (hne (hx ((table_early s.state).2 _ hfb k))).elim⟩, fun k => ?_⟩
              cases k
              exact (hne (hgive ht.symm)).elim
            | none =>
              refine ⟨⟨hout, fun k => (hne (hx (by rw [← hst]; exact k))).elim⟩, fun k => ?_⟩
              cases k
              exact (hne (hgive ht.symm)).elim
          · have h2 := transition_head (t := t) (s := s1) hst
            refine ⟨⟨h2.2.1.trans hout, fun k => ?_⟩, fun k => ?_⟩
            · rw [h2.1]; exact hrep (hx (h2.2.2 k))
            · rw [h2.1]
              cases hy : Scanner.transition (stm s.state) t s1 with
              | mk r s2 =>
                rw [hy] at k
                simp only at k
                subst k
                rcases transition_res hy with h | h
                · exact hrep (hgive (ht ▸ h.symm))
                · cases h

theorem itemLoop_head {e : Enc} {n mask : Nat} : ∀ (k : Nat) {s : Scanner ρ}, Head e s →
    Head e (Scanner.itemLoop n mask k s).2 ∧
      ((Scanner.itemLoop n mask k s).1 = .ok .HeaderStart → Rep e (Scanner.itemLoop n mask k s).2.out)
  | 0, _, h => ⟨h, fun k => by cases k⟩
  | k + 1, s, h => by
    unfold Scanner.itemLoop
    have h1 := body_head (n := n) (mask := mask) h
    cases hb : Scanner.body n mask s with
    | mk r s1 =>
      rw [hb] at h1
      cases r with
      | stop er => rw [M.bind_stop hb]; exact ⟨h1.1, fun k => by cases k⟩
      | ok r =>
        rw [M.bind_ok hb]
        cases r with
        | none => exact itemLoop_head k h1.1
        | some t => exact ⟨h1.1, fun k => by cases k; exact h1.2 rfl⟩

omit [Reader ρ] in
theorem clearIf_head {e : Enc} (c : Bool) {s : Scanner ρ} (h : Head e s) : ∃ s', Scanner.clearIf c s = (.ok (), s') ∧ Head e s' := by
  cases c
  · exact ⟨s, rfl, h⟩
  · exact ⟨(Scanner.getError s).2, rfl, h⟩

theorem session_head {e : Enc} {n : Nat} {sp : Bool} (calls : List (Nat × Bool)) : ∀ {s s' : Scanner ρ} {obs : List Obs},
    Head e s → Scanner.session n sp calls s = (.ok obs, s') → ∀ o ∈ obs, o.type = .HeaderStart → Rep e o.item := by
  induction calls with
  | nil =>
    intro s s' obs _ h
    cases h
    intro o ho
    cases ho
  | cons mc cs ih =>
    obtain ⟨mask, c⟩ := mc
    intro s s' obs hh h
    rw [Scanner.session] at h
    obtain ⟨r, s1, h1, h⟩ := M.bind_eq h
    obtain ⟨s1', _, hg, h⟩ := M.bind_eq h
    cases hg
    obtain ⟨_, s2, hc, h⟩ := M.bind_eq h
    obtain ⟨os, s3, h3, h⟩ := M.bind_eq h
    cases h
    have hi := itemLoop_head (n := n) (mask := mask) n hh
    change Scanner.itemLoop n mask n s = _ at h1
    rw [h1] at hi
    obtain ⟨s2', hc', g2⟩ := clearIf_head c hi.1
    rw [hc'] at hc
    cases hc
    intro o ho ht
    rcases List.mem_cons.1 ho with rfl | ho
    · exact hi.2 (congrArg Res.ok ht)
    · exact ih g2 h3 o ho ht

theorem nextFed_head {e : Enc} {n : Nat} {fresh : Bool} {mask : Nat} : ∀ (cs : List (List Byte))
    {s s' : Scanner (TextScanner SrcIt)} {r : ElementType} {cs' : List (List Byte)}, Head e s →
    Scanner.nextFed n fresh mask cs s = (.ok (r, cs'), s') → Head e s' ∧ (r = .HeaderStart → Rep e s'.out) := by
  intro cs
  induction cs with
  | nil =>
    intro s s' r cs' hp h
    have hi := itemLoop_head (n := n) (mask := mask) n hp
    rw [Scanner.nextFed] at h
    simp only at h
    cases h1 : Scanner.nextItem n mask s with
    | mk r1 s1 =>
      rw [h1] at h
      change Scanner.itemLoop n mask n s = _ at h1
      rw [h1] at hi
      cases r1 with
      | ok t => cases h; exact ⟨hi.1, fun k => hi.2 (congrArg Res.ok k)⟩
      | stop er => cases h
  | cons c cs ih =>
    intro s s' r cs' hp h
    have hi := itemLoop_head (n := n) (mask := mask) n hp
    rw [Scanner.nextFed] at h
    simp only at h
    cases h1 : Scanner.nextItem n mask s with
    | mk r1 s1 =>
      rw [h1] at h
      change Scanner.itemLoop n mask n s = _ at h1
      rw [h1] at hi
      cases r1 with
      | ok t => cases h; exact ⟨hi.1, fun k => hi.2 (congrArg Res.ok k)⟩
      | stop er =>
        cases er
        case eom =>
          refine ih ?_ h
          have g : (Scanner.feed fresh c (!cs.isEmpty) s1).state = s1.state ∧ (Scanner.feed fresh c (!cs.isEmpty) s1).output = s1.output ∧
              (Scanner.feed fresh c (!cs.isEmpty) s1).out = s1.out := by
            unfold Scanner.feed
            split <;> exact ⟨rfl, rfl, rfl⟩
          unfold Head
          rw [g.1, g.2.1, g.2.2]
          exact hi.1
        all_goals cases h

theorem sessionFed_head {e : Enc} {n : Nat} {fresh sp : Bool} (calls : List (Nat × Bool)) :
    ∀ {chunks : List (List Byte)} {s s' : Scanner (TextScanner SrcIt)} {obs : List Obs},
    Head e s → Scanner.sessionFed n fresh sp calls chunks s = (.ok obs, s') → ∀ o ∈ obs, o.type = .HeaderStart → Rep e o.item := by
  induction calls with
  | nil =>
    intro chunks s s' obs _ h
    cases h
    intro o ho
    cases ho
  | cons mc cs ih =>
    obtain ⟨mask, c⟩ := mc
    intro chunks s s' obs hh h
    rw [Scanner.sessionFed] at h
    obtain ⟨⟨r, chunks'⟩, s1, h1, h⟩ := M.bind_eq h
    obtain ⟨s1', _, hg, h⟩ := M.bind_eq h
    cases hg
    obtain ⟨_, s2, hc, h⟩ := M.bind_eq h
    obtain ⟨os, s3, h3, h⟩ := M.bind_eq h
    cases h
    have hi := nextFed_head chunks hh h1
    obtain ⟨s2', hc', g2⟩ := clearIf_head c hi.1
    rw [hc'] at hc
    cases hc
    intro o ho ht
    rcases List.mem_cons.1 ho with rfl | ho
    · exact hi.2 ht
    · exact ih g2 h3 o ho ht

end TW.ItemOrder
