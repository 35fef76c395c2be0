import Verif.Proofs.MachineShape
import Verif.Proofs.Chunks

/-!
# Configurations reached by sessions
-/

namespace TW

open Spec

namespace Mach

variable {e : Enc} {f : Nat → Byte}

theorem Inv0.clr {A : Cfg} (h : Inv0 A) (c : Bool) : Inv0 (clr c A) := by
  unfold Mach.clr
  split
  · exact ⟨h.buf, h.pos, h.base, h.id, h.val, h.cr⟩
  · exact h

theorem Steps.keepsInv {mask m : Nat} {A B : Cfg} {P : Cfg → Prop}
    (hs : ∀ A B r, Inv mask A → P A → step e f mask A = (r, B) → P B)
    (h : Steps e f mask m A B) (hi : Inv mask A) (hp : P A) : Inv mask B ∧ P B := by
  induction h with
  | refl => exact ⟨hi, hp⟩
  | cons h1 _ ih => exact ih (step_inv hi h1) (hs _ _ _ hi hp h1)

theorem Fin.keepsInv {mask m : Nat} {A B : Cfg} {r : ElementType} {P : Cfg → Prop}
    (hs : ∀ A B r, Inv mask A → P A → step e f mask A = (r, B) → P B)
    (h : Fin e f mask m A r B) (hi : Inv mask A) (hp : P A) : Inv0 B ∧ P B := by
  obtain ⟨A1, h1, h2⟩ := h
  obtain ⟨h3, h4⟩ := h1.keepsInv hs hi hp
  exact ⟨step_ret h3 h2, hs _ _ _ h3 h4 h2⟩

theorem Reach.keepsInv {P : Cfg → Prop}
    (hs : ∀ mask A B r, Inv mask A → P A → step e f mask A = (r, B) → P B)
    (hc : ∀ c A, P A → P (Mach.clr c A)) {A0 A : Cfg} (h : Reach e f A0 A) (hi : Inv0 A0) (hp : P A0) :
    Inv0 A ∧ P A := by
  induction h with
  | refl => exact ⟨hi, hp⟩
  | call _ h2 ih =>
    obtain ⟨h3, h4⟩ := h2.keepsInv (hs _) (ih.1.inv _) ih.2
    exact ⟨h3.clr _, hc _ _ h4⟩

theorem DoneOk.clr {A : Cfg} (c : Bool) (h : DoneOk e f A) : DoneOk e f (clr c A) := by
  unfold Mach.clr
  split <;> exact h

theorem Inv0.new (output : Enc) (em : Option (List (Nat × UChar))) (addr : Nat) :
    Inv0 (Cfg.new output em addr) := ⟨rfl, rfl, Nat.zero_le _, .inl rfl, rfl, rfl⟩

theorem Reach.done {A : Cfg} {output : Enc} {em : Option (List (Nat × UChar))} {addr : Nat}
    (h : Reach e f (Cfg.new output em addr) A) : Inv0 A ∧ DoneOk e f A :=
  h.keepsInv (fun _ _ _ _ _ _ h => step_done h) (fun c _ h => h.clr c) (.new _ _ _) (by
    intro h; cases h)

/-! ## Documents without markup declarations -/

/-- States the scanner can be in without having seen `<!` or `<?` inside of the document. -/
def plain : List STMState := [.START, .STARTTAG, .XTAG, .XTAGEND, .XTAGDONE, .XTAGAISK, .XTAGANAM,
  .XTAGAESK, .XTAGAVSK, .XTAGAVID, .XTAGAVSQ, .XTAGAVDQ, .XTAGAVQE, .DOCSTART, .CONTENT, .TOKEN,
  .SEEKTOK, .XMLTAG, .OPENTAG, .CLOSETAG, .TAGCLSK, .TAGAISK, .TAGANAM, .TAGAESK, .TAGAVSK, .TAGAVID,
  .TAGAVSQ, .TAGAVDQ, .TAGAVQE, .TAGCLIM, .EXIT]

/-- Classes of white space. -/
def whites : List Cc := [.EndOfLine, .Cntrl, .Space]

theorem plain_next1 : ∀ s ∈ plain, ∀ c ∈ Cc.all, ∀ ns ∈ STMState.all, (stm s).next c = some ns →
    (ns ∈ plain ∨ ((s = .STARTTAG ∨ s = .XMLTAG) ∧ c = .Exclam) ∨ (s = .XMLTAG ∧ c = .Questm)) ∧
    s ≠ .EXIT := by decide +kernel

theorem plain_next2 : ∀ s ∈ plain, ∀ c ∈ Cc.all, ∀ ns ∈ STMState.all, (stm s).next c = some ns →
    ns = .START → s = .START ∧ c ∈ whites := by decide +kernel

theorem plain_next3 : ∀ s ∈ plain, ∀ c ∈ Cc.all, ∀ ns ∈ STMState.all, (stm s).next c = some ns →
    ns = .STARTTAG → (s = .START ∧ c = .Lt) ∨ (s = .STARTTAG ∧ c ∈ whites) := by decide +kernel

theorem plain_next4 : ∀ s ∈ plain, ∀ c ∈ Cc.all, ∀ ns ∈ STMState.all, (stm s).next c = some ns →
    ns = .XMLTAG → (s ≠ .START ∧ c = .Lt) ∨ (s = .XMLTAG ∧ c ∈ whites) := by decide +kernel

theorem plain_next5 : ∀ s ∈ plain, ∀ c ∈ Cc.all, ∀ ns ∈ STMState.all, (stm s).next c = some ns →
    s = .START → ns ≠ .START → ns ≠ .EXIT → c = .Lt := by decide +kernel

theorem plain_fallback : ∀ s ∈ plain, ∀ fb ∈ STMState.all, (stm s).fallback = some fb →
    fb ∈ plain ∧ fb ≠ .START ∧ fb ≠ .STARTTAG ∧ fb ≠ .XMLTAG ∧ s ≠ .START ∧ s ≠ .EXIT := by decide +kernel

theorem plain_lost : ∀ s ∈ plain, s ∉ lost := by decide +kernel

theorem white_of_class : ∀ c : _root_.Fin 256, controlCharMap c ∈ whites → 1 ≤ c.1 ∧ c.1 ≤ 32 := by decide +kernel
theorem lt_of_class : ∀ c : _root_.Fin 256, controlCharMap c = .Lt → c.1 = 60 := by decide +kernel
theorem exclam_of_class : ∀ c : _root_.Fin 256, controlCharMap c = .Exclam → c.1 = 33 := by decide +kernel
theorem questm_of_class : ∀ c : _root_.Fin 256, controlCharMap c = .Questm → c.1 = 63 := by decide +kernel

theorem uasc_lt (k : Nat) : uasc e f k < 256 := by
  cases e <;> simp only [uasc] <;> split <;> omega

/-- The invariant for documents without markup declarations. -/
structure Plain (e : Enc) (f : Nat → Byte) (A : Cfg) (j : Nat) : Prop where
  src : A.src = offs e f 0 j
  plain : A.state ∈ plain
  start : A.state = .START → ∀ l, l < j → White (uasc e f (offs e f 0 l))
  starttag : A.state = .STARTTAG → ∃ i, i < j ∧ uasc e f (offs e f 0 i) = 60 ∧
    (∀ l, l < i → White (uasc e f (offs e f 0 l))) ∧ ∀ l, i < l → l < j → White (uasc e f (offs e f 0 l))
  xmltag : A.state = .XMLTAG → ∃ i, i < j ∧ uasc e f (offs e f 0 i) = 60 ∧
    (∃ l, l < i ∧ uasc e f (offs e f 0 l) = 60) ∧ ∀ l, i < l → l < j → White (uasc e f (offs e f 0 l))
  later : A.state ≠ .START → A.state ≠ .EXIT → ∃ l, l < j ∧ uasc e f (offs e f 0 l) = 60

theorem Plain.step {mask : Nat} {A B : Cfg} {r : Option ElementType}
    (hm : ∀ i j, i < j → uasc e f (offs e f 0 i) = 60 →
      (∀ l, i < l → l < j → White (uasc e f (offs e f 0 l))) → uasc e f (offs e f 0 j) ≠ 33 ∧
      (uasc e f (offs e f 0 j) = 63 → ∀ l, l < i → White (uasc e f (offs e f 0 l))))
    (hp : ∃ j, Plain e f A j) (h : Mach.step e f mask A = (r, B)) : ∃ j, Plain e f B j := by
  obtain ⟨j, hp⟩ := hp
  have hcls : cls e f A = controlCharMap (uasc e f (offs e f 0 j)) := by unfold cls; rw [hp.src]
  have hlt := uasc_lt (e := e) (f := f) (offs e f 0 j)
  have h60 : ¬ White 60 := by simp [White]
  rcases step_shape h with ⟨h1, h2 | ⟨h2, ha⟩⟩ | ⟨h1, h2⟩ | ⟨h1, h2⟩
  · exact ⟨j, by rw [h2]; exact hp.src, by rw [h1]; exact hp.plain, by rw [h1]; exact hp.start,
      by rw [h1]; exact hp.starttag, by rw [h1]; exact hp.xmltag, by rw [h1]; exact hp.later⟩
  · have hs1 : A.state ≠ .START := by intro hs; rw [hs] at ha; exact ha rfl
    have hs2 : A.state ≠ .STARTTAG := by intro hs; rw [hs] at ha; exact ha rfl
    have hs3 : A.state ≠ .XMLTAG := by intro hs; rw [hs] at ha; exact ha rfl
    refine ⟨j + 1, by rw [h2, hp.src]; rfl, by rw [h1]; exact hp.plain, by rw [h1]; intro h; exact absurd h hs1,
      by rw [h1]; intro h; exact absurd h hs2, by rw [h1]; intro h; exact absurd h hs3, ?_⟩
    intro g1 g2
    obtain ⟨l, hl, hl2⟩ := hp.later (by rw [← h1]; exact g1) (by rw [← h1]; exact g2)
    exact ⟨l, by omega, hl2⟩
  · obtain ⟨g1, g5⟩ := plain_next1 _ hp.plain _ (Cc.mem_all _) _ (STMState.mem_all _) h1
    have g2 := plain_next2 _ hp.plain _ (Cc.mem_all _) _ (STMState.mem_all _) h1
    have g3 := plain_next3 _ hp.plain _ (Cc.mem_all _) _ (STMState.mem_all _) h1
    have g4 := plain_next4 _ hp.plain _ (Cc.mem_all _) _ (STMState.mem_all _) h1
    have g6 := plain_next5 _ hp.plain _ (Cc.mem_all _) _ (STMState.mem_all _) h1
    have hw : cls e f A ∈ whites → White (uasc e f (offs e f 0 j)) := by
      rw [hcls]; exact fun h => white_of_class ⟨_, hlt⟩ h
    have hl : cls e f A = .Lt → uasc e f (offs e f 0 j) = 60 := by
      rw [hcls]; exact fun h => lt_of_class ⟨_, hlt⟩ h
    refine ⟨j + 1, by rw [h2, hp.src]; rfl, ?_, ?_, ?_, ?_, ?_⟩
    · rcases g1 with g1 | ⟨g1, g7⟩ | ⟨g1, g7⟩
      · exact g1
      · exfalso
        have h33 : uasc e f (offs e f 0 j) = 33 := by
          rw [hcls] at g7; exact exclam_of_class ⟨_, hlt⟩ g7
        rcases g1 with g1 | g1
        · obtain ⟨i, hi, hi2, -, hi3⟩ := hp.starttag g1
          exact (hm i j hi hi2 hi3).1 h33
        · obtain ⟨i, hi, hi2, -, hi3⟩ := hp.xmltag g1
          exact (hm i j hi hi2 hi3).1 h33
      · exfalso
        have h63 : uasc e f (offs e f 0 j) = 63 := by
          rw [hcls] at g7; exact questm_of_class ⟨_, hlt⟩ g7
        obtain ⟨i, hi, hi2, ⟨l, hl1, hl2⟩, hi3⟩ := hp.xmltag g1
        have := (hm i j hi hi2 hi3).2 h63 l hl1
        rw [hl2] at this
        exact h60 this
    · intro hs l hlj
      obtain ⟨g7, g8⟩ := g2 hs
      rcases Nat.lt_succ_iff_lt_or_eq.1 hlj with hlj | rfl
      · exact hp.start g7 l hlj
      · exact hw g8
    · intro hs
      rcases g3 hs with ⟨g7, g8⟩ | ⟨g7, g8⟩
      · exact ⟨j, by omega, hl g8, hp.start g7, fun l _ _ => by omega⟩
      · obtain ⟨i, hi, hi2, hi3, hi4⟩ := hp.starttag g7
        refine ⟨i, by omega, hi2, hi3, fun l h3 h4 => ?_⟩
        rcases Nat.lt_succ_iff_lt_or_eq.1 h4 with h4 | rfl
        · exact hi4 l h3 h4
        · exact hw g8
    · intro hs
      rcases g4 hs with ⟨g7, g8⟩ | ⟨g7, g8⟩
      · exact ⟨j, by omega, hl g8, hp.later g7 g5, fun l _ _ => by omega⟩
      · obtain ⟨i, hi, hi2, hi3, hi4⟩ := hp.xmltag g7
        refine ⟨i, by omega, hi2, hi3, fun l h3 h4 => ?_⟩
        rcases Nat.lt_succ_iff_lt_or_eq.1 h4 with h4 | rfl
        · exact hi4 l h3 h4
        · exact hw g8
    · intro g7 g8
      by_cases hs : A.state = .START
      · exact ⟨j, by omega, hl (g6 hs g7 g8)⟩
      · obtain ⟨l, hl1, hl2⟩ := hp.later hs g5
        exact ⟨l, by omega, hl2⟩
  · obtain ⟨g1, g2, g3, g4, g5, g6⟩ := plain_fallback _ hp.plain _ (STMState.mem_all _) h1
    exact ⟨j, by rw [h2]; exact hp.src, g1, fun h => absurd h g2, fun h => absurd h g3,
      fun h => absurd h g4, fun _ _ => hp.later g5 g6⟩

theorem Plain.clr {A : Cfg} (c : Bool) (h : ∃ j, Plain e f A j) : ∃ j, Plain e f (clr c A) j := by
  obtain ⟨j, h⟩ := h
  unfold Mach.clr
  split
  · exact ⟨j, h.src, h.plain, h.start, h.starttag, h.xmltag, h.later⟩
  · exact ⟨j, h⟩

theorem Plain.new (output : Enc) (em : Option (List (Nat × UChar))) (addr : Nat) :
    Plain e f (Cfg.new output em addr) 0 :=
  ⟨rfl, List.mem_cons_self, fun _ l hl => absurd hl (Nat.not_lt_zero l), (nomatch ·), (nomatch ·), fun h => absurd rfl h⟩

end Mach

open Mach

variable {ι : Type} [Iter ι] {f : Nat → Byte} {S : Source ι f} {e : Enc} {A : Cfg}
  {s : Scanner (TextScanner ι)}

/-- The position in the input. -/
theorem SRel0.position (h : SRel0 S e s A) (hw : S.wrap) : s.src.getPosition = A.src % 2 ^ 64 := by
  obtain ⟨⟨ld, t, tp, rfl, h1, h2⟩, h3, h4⟩ := h
  exact h1.getPosition_wrap hw

theorem SRel0.state (h : SRel0 S e s A) : s.state = A.state := by
  obtain ⟨⟨ld, t, tp, rfl, h1, h2⟩, h3, h4⟩ := h; rfl

theorem strm_ends (doc : List Byte) : Ends (strm doc) doc.length := by
  intro k hk
  simp only [strm, List.getD_eq_getElem?_getD]
  rw [List.getElem?_eq_none hk]
  rfl

theorem session_total {n : Nat} {sp : Bool} (hS : S.Total) {cs : List (Nat × Bool)} :
    ∀ {A : Cfg} {s s' : Scanner (TextScanner ι)} {er : Stop}, SRel0 S e s A →
    Scanner.session n sp cs s = (.stop er, s') → er = .fuel := by
  induction cs with
  | nil => intro A s s' er h hs; cases hs
  | cons mc cs ih =>
    intro A s s' er h hs
    obtain ⟨mask, c⟩ := mc
    unfold Scanner.session at hs
    generalize hr : Scanner.nextItem n mask s = x at hs
    obtain ⟨x, s1⟩ := x
    cases x with
    | stop er =>
      rw [M.bind_stop hr] at hs
      cases hs
      exact nextItem_total hS (h.rel mask) hr
    | ok r =>
      obtain ⟨m, B, h1, h2⟩ := nextItem_ok (h.rel mask) hr
      obtain ⟨s2, h4, h5⟩ := h2.clr c
      rw [M.bind_ok hr, M.bind_ok (M.get_run _), M.bind_ok h4, M.bind_run] at hs
      generalize hx : Scanner.session n sp cs s2 = x at hs
      obtain ⟨x, s3⟩ := x
      cases x with
      | stop er => cases hs; exact ih h5 hx
      | ok l' => cases hs

end TW
