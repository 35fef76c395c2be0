import Verif.Spec.ItemOrder
import Verif.Spec.Path
import Verif.Proofs.Exit

/-!
# The order of the items for any source
-/

namespace TW.ItemOrder

open Spec.Order

variable {ρ : Type}

/-! ## What leaves the state as it is -/

/-- The operation leaves the state of the machine and the character set of the output as they are, whatever its result is. -/
def Fixed {α : Type} (x : M (Scanner ρ) α) : Prop := ∀ s, ((x s).2.state, (x s).2.output) = (s.state, s.output)

theorem Fixed.state {α : Type} {x : M (Scanner ρ) α} (h : Fixed x) (s : Scanner ρ) : (x s).2.state = s.state := congrArg Prod.fst (h s)

theorem Fixed.output {α : Type} {x : M (Scanner ρ) α} (h : Fixed x) (s : Scanner ρ) : (x s).2.output = s.output := congrArg Prod.snd (h s)

theorem Fixed.pure {α : Type} (a : α) : Fixed (pure a : M (Scanner ρ) α) := fun _ => rfl

theorem Fixed.stop {α : Type} (e : Stop) : Fixed (M.stop e : M (Scanner ρ) α) := fun _ => rfl

theorem Fixed.get : Fixed (M.get : M (Scanner ρ) (Scanner ρ)) := fun _ => rfl

theorem Fixed.bind {α β : Type} {x : M (Scanner ρ) α} {f : α → M (Scanner ρ) β} (h : Fixed x) (k : ∀ a, Fixed (f a)) :
    Fixed (x >>= f) := by
  intro s
  have h := h s
  cases hx : x s with
  | mk r s' =>
    rw [hx] at h
    cases r with
    | ok a => rw [M.bind_ok hx]; exact (k a s').trans h
    | stop e => rw [M.bind_stop hx]; exact h

theorem Fixed.ite {α : Type} {c : Prop} [Decidable c] {x y : M (Scanner ρ) α} (h : Fixed x) (k : Fixed y) :
    Fixed (if c then x else y) := by
  split
  · exact h
  · exact k

theorem Fixed.onSrc {α : Type} (x : M ρ α) : Fixed (Scanner.onSrc x) := fun _ => rfl
theorem Fixed.modTok (f : TokState → TokState) : Fixed (Scanner.modTok (ρ := ρ) f) := fun _ => rfl
theorem Fixed.setError (e : Err) : Fixed (Scanner.setError (ρ := ρ) e) := fun _ => rfl
theorem Fixed.emit (bs : List Byte) : Fixed (Scanner.emit (ρ := ρ) bs) := fun _ => rfl
theorem Fixed.push (c : UChar) : Fixed (Scanner.push (ρ := ρ) c) := fun _ => rfl
theorem Fixed.storeTok (i : Nat) (c : Byte) : Fixed (Scanner.storeTok (ρ := ρ) i c) := by
  intro s
  unfold Scanner.storeTok
  split <;> rfl

theorem Fixed.pushAll : ∀ cs, Fixed (Scanner.pushAll (ρ := ρ) cs)
  | [] => .pure _
  | c :: cs => .bind (.push c) fun _ => Fixed.pushAll cs

theorem Fixed.fallbackEntity : Fixed (Scanner.fallbackEntity (ρ := ρ)) := by
  refine .bind .get fun s => ?_
  split
  all_goals first
    | exact .pure _
    | exact .push _
    | exact .bind (.push _) fun _ => .push _
    | exact .bind (.push _) fun _ => .bind (.push _) fun _ => .pushAll _
    | exact .bind (.push _) fun _ => .pushAll _

theorem Fixed.pushEntity (name : List Byte) : Fixed (Scanner.pushEntity (ρ := ρ) name) := by
  unfold Scanner.pushEntity
  split
  · exact .bind (.push _) fun _ => .pure _
  · refine .bind .get fun s => ?_
    split
    · split
      · exact .bind (.push _) fun _ => .pure _
      · exact .bind (.setError _) fun _ => .pure _
    · exact .bind (.setError _) fun _ => .pure _

variable [Reader ρ]

theorem Fixed.numericLoop : ∀ k, Fixed (Scanner.numericLoop (ρ := ρ) k)
  | 0 => .bind .fallbackEntity fun _ => .pure _
  | k + 1 => .bind (.onSrc _) fun _ => .bind .get fun _ => .ite
      (.ite
        (.bind (.storeTok _ _) fun _ => .bind (.modTok _) fun _ => .bind .fallbackEntity fun _ => .pure _)
        (.bind (.push _) fun _ => .bind (.modTok _) fun _ => .bind (.onSrc _) fun _ => .pure _))
      (.ite
        (.bind .fallbackEntity fun _ => .pure _)
        (.bind (.storeTok _ _) fun _ => .bind (.modTok _) fun _ => .bind (.modTok _) fun _ => .bind (.onSrc _) fun _ =>
          Fixed.numericLoop k))

theorem Fixed.parseNumericBaseEntity : Fixed (Scanner.parseNumericBaseEntity (ρ := ρ)) :=
  .bind (.modTok _) fun _ => .bind .get fun _ => .numericLoop _

theorem Fixed.parseNumericEntity : Fixed (Scanner.parseNumericEntity (ρ := ρ)) :=
  .bind (.modTok _) fun _ => .bind (.onSrc _) fun _ => .ite
    (.bind (.modTok _) fun _ => .bind (.onSrc _) fun _ => .parseNumericBaseEntity)
    (.bind (.modTok _) fun _ => .parseNumericBaseEntity)

theorem Fixed.namedLoop : ∀ k c, Fixed (Scanner.namedLoop (ρ := ρ) k c)
  | 0, _ => .pure _
  | k + 1, _ => .ite
      (.bind (.onSrc _) fun _ => .ite
        (.bind .get fun _ => .bind (.storeTok _ _) fun _ => .bind (.onSrc _) fun _ => .bind (.modTok _) fun _ =>
          .bind (.onSrc _) fun ch => Fixed.namedLoop k ch)
        (.pure _))
      (.pure _)

theorem Fixed.parseNamedEntity : Fixed (Scanner.parseNamedEntity (ρ := ρ)) :=
  .bind (.modTok _) fun _ => .bind (.onSrc _) fun _ => .bind .get fun _ => .bind (.namedLoop _ _) fun _ => .ite
    (.bind .get fun _ => .bind (.storeTok _ _) fun _ => .bind .get fun _ => .bind (.pushEntity _) fun _ => .ite
      (.bind (.modTok _) fun _ => .bind (.onSrc _) fun _ => .pure _)
      (.pure _))
    (.bind .fallbackEntity fun _ => .pure _)

theorem Fixed.parseEntity : Fixed (Scanner.parseEntity (ρ := ρ)) :=
  .bind (.modTok _) fun _ => .bind (.onSrc _) fun _ => .ite
    (.bind (.onSrc _) fun _ => .parseNumericEntity)
    .parseNamedEntity

theorem Fixed.parseTokenRecover : Fixed (Scanner.parseTokenRecover (ρ := ρ)) := by
  refine .bind .get fun s => ?_
  split
  all_goals first
    | exact .bind (.setError _) fun _ => .pure _
    | exact .bind .parseEntity fun _ => .bind (.modTok _) fun _ => .pure _
    | exact .bind .parseNumericEntity fun _ => .bind (.modTok _) fun _ => .pure _
    | exact .bind .parseNumericBaseEntity fun _ => .bind (.modTok _) fun _ => .pure _
    | exact .bind .parseNamedEntity fun _ => .bind (.modTok _) fun _ => .pure _

theorem Fixed.copychar : Fixed (Scanner.copychar (ρ := ρ)) := .bind .get fun _ => .bind (.onSrc _) fun _ => .emit _

theorem Fixed.tokenChar : Fixed (Scanner.tokenChar (ρ := ρ)) :=
  .bind (.onSrc _) fun _ => .ite
    (.ite (.bind (.push _) fun _ => .modTok _)
      (.ite (.bind .get fun _ => .ite (.modTok _) (.bind (.push _) fun _ => .modTok _))
        (.bind .copychar fun _ => .modTok _)))
    (.bind .copychar fun _ => .modTok _)

theorem Fixed.tokenLoop (isTok : Cc → Bool) : ∀ n, Fixed (Scanner.tokenLoop (ρ := ρ) isTok n)
  | 0 => .stop _
  | n + 1 => .bind (.onSrc _) fun _ => .ite
      (.bind .tokenChar fun _ => .bind (.onSrc _) fun _ => Fixed.tokenLoop isTok n)
      (.ite
        (.bind (.onSrc _) fun _ => .bind .parseEntity fun _ => .ite
          (.bind (.modTok _) fun _ => Fixed.tokenLoop isTok n)
          (.bind (.modTok _) fun _ => .pure _))
        (.bind (.modTok _) fun _ => .pure _))

theorem Fixed.parseToken (n : Nat) (isTok : Cc → Bool) : Fixed (Scanner.parseToken (ρ := ρ) n isTok) :=
  .bind .get fun _ => .ite
    (.bind (fun _ => rfl) fun _ => .bind (.modTok _) fun _ => .tokenLoop _ _)
    (.ite
      (.bind .parseTokenRecover fun _ => .ite (.tokenLoop _ _) (.bind (.modTok _) fun _ => .pure _))
      (.tokenLoop _ _))

theorem Fixed.skipToken (isTok : Cc → Bool) : ∀ n, Fixed (Scanner.skipToken (ρ := ρ) isTok n)
  | 0 => .stop _
  | n + 1 => .bind (.onSrc _) fun _ => .ite
      (.bind (.onSrc _) fun _ => Fixed.skipToken isTok n)
      (.bind (.onSrc _) fun _ => .ite (Fixed.skipToken isTok n) (.pure _))

theorem Fixed.expectLoop : ∀ cs, Fixed (Scanner.expectLoop (ρ := ρ) cs)
  | [] => .pure _
  | _ :: cs => .bind (.onSrc _) fun _ => .ite
      (.bind (.onSrc _) fun _ => .bind (.modTok _) fun _ => Fixed.expectLoop cs)
      (.bind (.onSrc _) fun _ => .bind (.setError _) fun _ => .pure _)

theorem Fixed.expectStr (str : List Byte) : Fixed (Scanner.expectStr (ρ := ρ) str) :=
  .bind (.modTok _) fun _ => .bind .get fun _ => .ite (.stop _)
    (.bind (.expectLoop _) fun _ => .bind (.modTok _) fun _ => .pure _)

theorem Fixed.action (n mask : Nat) (op : STMAction) (arg : ElementType) : Fixed (Scanner.action (ρ := ρ) n mask op arg) := by
  unfold Scanner.action
  split
  · exact .bind .get fun _ => .ite
      (.ite (.bind (.parseToken _ _) fun _ => .ite (.pure _) (.pure _)) (.bind (.skipToken _ _) fun _ => .ite (.pure _) (.pure _)))
      (.pure _)
  · split
    · exact .bind .get fun _ => .ite
        (.bind (.expectStr _) fun _ => .ite
          (.ite (.bind (.push _) fun _ => .bind (.push _) fun _ => .bind (.push _) fun _ => .bind (.push _) fun _ => .pure _)
            (.pure _))
          (.pure _))
        (.ite (.pure _) (.pure _))
    · exact .bind (fun _ => rfl) fun _ => .pure _

/-! ## The table -/

/-- The states the machine can be in at a stage. -/
def fits : Stage → STMState → Bool
  | .start, .START | .start, .STARTTAG | .start, .XTAG => true
  | .header, .XTAGAISK | .header, .XTAGANAM | .header, .XTAGAVQE | .header, .XTAGEND | .header, .XTAGDONE => true
  | .headerName, .XTAGAESK | .headerName, .XTAGAVSK | .headerName, .XTAGAVID | .headerName, .XTAGAVSQ
  | .headerName, .XTAGAVDQ => true
  | .body, .DOCSTART | .body, .TAGCLSK => true
  | .tag, .TAGAISK | .tag, .TAGANAM | .tag, .TAGAVQE | .tag, .TAGCLIM => true
  | .tagName, .TAGAESK | .tagName, .TAGAVSK | .tagName, .TAGAVID | .tagName, .TAGAVSQ | .tagName, .TAGAVDQ => true
  | .closed, .TAGCLIM => true
  | .decl, .ENTITY | .decl, .ENTITYE | .decl, .ENTITYID | .decl, .ENTITYSQ | .decl, .ENTITYDQ | .decl, .ENTITYLC => true
  | .over, .EXIT => true
  | .start, s | .body, s | .tag, s | .closed, s =>
    match s with
    | .CONTENT | .TOKEN | .SEEKTOK | .XMLTAG | .OPENTAG | .CLOSETAG | .PITAG | .PITAGEND | .ENTITYSL | .ENTITY | .ENTITYE
    | .ENTITYID | .ENTITYSQ | .ENTITYDQ | .ENTITYLC | .COMDASH2 | .COMSEEKE | .COMENDD2 | .COMENDCL | .CDATA | .CDATA1
    | .CDATA2 | .CDATA3 | .EXIT => true
    | _ => false
  | _, _ => false

/-- The type of the item returned in a state, `None` if there is none. -/
def gives (s : STMState) : ElementType :=
  match (stm s).action with
  | none => .None
  | some (op, arg) => if op = .ExpectIdentifierXML then .HeaderStart else arg

/-- The stage behind the item of a state. -/
def goes (p : Stage) (t : ElementType) : Option Stage := if t = .None then some p else step p t

/-- The table leads from a state of a stage only to states of the stage behind the item given. -/
def fine (p : Stage) (s : STMState) : Bool :=
  !fits p s ||
  match goes p (gives s) with
  | none => false
  | some q => (Cc.all.all fun c => ((stm s).next c).all (fits q)) && (stm s).fallback.all (fits q) &&
      ((stm s).fallback.isSome || decide ((stm s).nofnext ≠ 0) || fits q s)

theorem table_fine : (Stage.all.all fun p => STMState.all.all fun s => fine p s) = true := by decide +kernel

theorem Stage.mem_all (p : Stage) : p ∈ Stage.all := by cases p <;> decide

theorem table {p : Stage} {s : STMState} (h : fits p s = true) : ∃ q, goes p (gives s) = some q ∧
    (∀ c ns, (stm s).next c = some ns → fits q ns = true) ∧ (∀ fb, (stm s).fallback = some fb → fits q fb = true) ∧
    ((stm s).fallback = none → (stm s).nofnext = 0 → fits q s = true) := by
  have h1 := List.all_eq_true.1 (List.all_eq_true.1 table_fine p (Stage.mem_all p)) s (STMState.mem_all s)
  unfold fine at h1
  rw [h] at h1
  simp only [Bool.not_true, Bool.false_or] at h1
  cases hg : goes p (gives s) with
  | none => rw [hg] at h1; cases h1
  | some q =>
    rw [hg] at h1
    simp only [Bool.and_eq_true, Bool.or_eq_true, List.all_eq_true, decide_eq_true_eq] at h1
    obtain ⟨⟨h2, h3⟩, h4⟩ := h1
    refine ⟨q, rfl, ?_, ?_, ?_⟩
    · intro c ns hn
      have := h2 c (Cc.mem_all c)
      rw [hn] at this
      exact this
    · intro fb hf
      rw [hf] at h3
      exact h3
    · intro hf hn
      rcases h4 with (h4 | h4) | h4
      · rw [hf] at h4; cases h4
      · exact absurd hn h4
      · exact h4

/-! ## One iteration -/

/-- What comes out of an operation that starts at a stage: at an item the stage behind it is reached, at an error or at the end
of the input (asked for with `b`) the stage is the same. -/
def Post (b : Bool) (p : Stage) : Res (Option ElementType) × Scanner ρ → Prop
  | (.ok none, s) => fits p s.state = true
  | (.ok (some t), s) => (t = .ErrorOccurred ∧ fits p s.state = true) ∨ ∃ q, step p t = some q ∧ fits q s.state = true
  | (.stop .eom, s) => b = true → fits p s.state = true
  | (.stop _, _) => True

/-- A character `control` has looked at is skipped without a need for input. -/
def Skips (ρ : Type) [Reader ρ] : Prop :=
  ∀ (r : ρ) (c : Cc) (r' : ρ), Reader.control r = (.ok c, r') → (Reader.skip r').1 ≠ .stop .eom

theorem action_gives {n mask : Nat} {op : STMAction} {arg r : ElementType} {s s' : Scanner ρ} {st : STMState}
    (ha : (stm st).action = some (op, arg)) (h : Scanner.action n mask op arg s = (.ok (some r), s')) : r = gives st := by
  have hc : op = .ExpectIdentifierCDATA → arg = .None := by
    rintro rfl
    cases st <;> simp [stm] at ha
    exact ha.symm
  unfold gives
  rw [ha]
  simp only
  unfold Scanner.action at h
  cases htd : tokenDefs op <;> simp only [htd] at h
  rotate_left
  · have hx : op ≠ .ExpectIdentifierXML := by rintro rfl; cases htd
    rw [if_neg hx]
    obtain ⟨s1, _, -, h⟩ := M.bind_eq h
    split at h
    · split at h
      · obtain ⟨b, s2, -, h⟩ := M.bind_eq h
        split at h <;> obtain ⟨h, -⟩ := M.pure_eq h <;> cases h
        rfl
      · obtain ⟨b, s2, -, h⟩ := M.bind_eq h
        split at h <;> obtain ⟨h, -⟩ := M.pure_eq h <;> cases h
        rfl
    · obtain ⟨h, -⟩ := M.pure_eq h
      cases h
      rfl
  · cases hsd : stringDefs op <;> simp only [hsd] at h
    · have hx : op ≠ .ExpectIdentifierXML := by rintro rfl; cases hsd
      rw [if_neg hx]
      obtain ⟨_, _, -, h⟩ := M.bind_eq h
      obtain ⟨h, -⟩ := M.pure_eq h
      cases h
      rfl
    · have ho : op = .ExpectIdentifierXML ∨ op = .ExpectIdentifierCDATA := by cases op <;> simp [stringDefs] at hsd ⊢
      obtain ⟨s1, _, -, h⟩ := M.bind_eq h
      rcases ho with rfl | rfl
      · rw [if_pos rfl]
        split at h
        · obtain ⟨b, s2, -, h⟩ := M.bind_eq h
          split at h
          · rw [if_pos rfl] at h
            obtain ⟨_, _, -, h⟩ := M.bind_eq h
            obtain ⟨_, _, -, h⟩ := M.bind_eq h
            obtain ⟨_, _, -, h⟩ := M.bind_eq h
            obtain ⟨_, _, -, h⟩ := M.bind_eq h
            obtain ⟨h, -⟩ := M.pure_eq h
            cases h
            rfl
          · obtain ⟨h, -⟩ := M.pure_eq h
            cases h
        · rw [if_pos rfl] at h
          obtain ⟨h, -⟩ := M.pure_eq h
          cases h
          rfl
      · rw [if_neg nofun, hc rfl]
        split at h
        · obtain ⟨b, s2, -, h⟩ := M.bind_eq h
          split at h
          · rw [if_neg nofun] at h
            obtain ⟨h, -⟩ := M.pure_eq h
            cases h
            rfl
          · obtain ⟨h, -⟩ := M.pure_eq h
            cases h
        · rw [if_neg nofun] at h
          obtain ⟨h, -⟩ := M.pure_eq h
          cases h
          rfl

omit [Reader ρ] in
/-- The end of the loop behind an item. -/
theorem post_end {b : Bool} {p q : Stage} {t : ElementType} {s : Scanner ρ} (hg : goes p t = some q) (hf : fits q s.state = true) :
    Post b p (.ok (Scanner.loopEnd t), s) := by
  unfold Scanner.loopEnd
  unfold goes at hg
  split at hg
  · rename_i ht
    cases hg
    rw [if_pos ht]
    exact hf
  · rename_i ht
    rw [if_neg ht]
    exact .inr ⟨q, hg, hf⟩

theorem transition_post {b : Bool} {p q : Stage} {st : STMState} {t : ElementType} {s : Scanner ρ} (hk : b = true → Skips ρ) (hs : s.state = st)
    (hp : fits p st = true) (hg : goes p t = some q) (hn : ∀ c ns, (stm st).next c = some ns → fits q ns = true)
    (hf : ∀ fb, (stm st).fallback = some fb → fits q fb = true) : Post b p (Scanner.transition (stm st) t s) := by
  unfold Scanner.transition
  cases h1 : Scanner.control s with
  | mk r s1 =>
    have g1 : s1.state = st := by
      have := (Fixed.onSrc (Reader.control (ρ := ρ))).state s
      change (Scanner.control s).2.state = _ at this
      rw [h1] at this
      exact this.trans hs
    cases r with
    | stop er =>
      rw [M.bind_stop h1]
      cases er
      case eom => intro _; show fits p s1.state = true; rw [g1]; exact hp
      all_goals trivial
    | ok c =>
      rw [M.bind_ok h1]
      have hsrc : Reader.control s.src = (.ok c, s1.src) := by
        unfold Scanner.control Scanner.onSrc at h1
        cases hr : (Reader.control s.src : Res Cc × ρ) with
        | mk r' src => rw [hr] at h1; cases h1; rfl
      have h2 : Scanner.setId (ρ := ρ) .Start s1 = (.ok (), { s1 with tok := { s1.tok with id := .Start } }) := rfl
      rw [M.bind_ok h2]
      generalize hs2 : ({ s1 with tok := { s1.tok with id := .Start } } : Scanner ρ) = s2
      have g2 : s2.state = st := by rw [← hs2]; exact g1
      have g2s : s2.src = s1.src := by rw [← hs2]
      cases h3 : (stm st).next c with
      | some ns =>
        simp only
        have h4 : Scanner.setState (ρ := ρ) ns s2 = (.ok (), { s2 with state := ns }) := rfl
        rw [M.bind_ok h4]
        generalize hs3 : ({ s2 with state := ns } : Scanner ρ) = s3
        have g3 : s3.state = ns := by rw [← hs3]
        have g3s : s3.src = s1.src := by rw [← hs3]; exact g2s
        cases h5 : Scanner.skip s3 with
        | mk r4 s4 =>
          have g4 : s4.state = ns := by
            have := (Fixed.onSrc (Reader.skip (ρ := ρ))).state s3
            change (Scanner.skip s3).2.state = _ at this
            rw [h5] at this
            exact this.trans g3
          cases r4 with
          | stop er =>
            rw [M.bind_stop h5]
            cases er
            case eom =>
              intro hb
              exfalso
              refine hk hb _ _ _ hsrc ?_
              unfold Scanner.skip Scanner.onSrc at h5
              rw [g3s] at h5
              cases hr : (Reader.skip s1.src : Res Unit × ρ) with
              | mk r' src => rw [hr] at h5; cases h5; rfl
            all_goals trivial
          | ok _ =>
            rw [M.bind_ok h5]
            exact post_end hg (by rw [g4]; exact hn _ _ h3)
      | none =>
        simp only
        cases h6 : (stm st).fallback with
        | some fb =>
          simp only
          have h4 : Scanner.setState (ρ := ρ) fb s2 = (.ok (), { s2 with state := fb }) := rfl
          rw [M.bind_ok h4]
          exact post_end hg (hf _ h6)
        | none =>
          simp only
          cases h7 : (stm st).miss with
          | some e =>
            simp only
            exact .inl ⟨rfl, by show fits p s2.state = true; rw [g2]; exact hp⟩
          | none =>
            simp only
            exact .inl ⟨rfl, by show fits p s2.state = true; rw [g2]; exact hp⟩

theorem body_post {b : Bool} {n mask : Nat} {p : Stage} {s : Scanner ρ} (hk : b = true → Skips ρ) (hp : fits p s.state = true) :
    Post b p (Scanner.body n mask s) := by
  obtain ⟨q, hg, hn, hf, hz⟩ := table hp
  unfold Scanner.body
  rw [M.bind_ok (M.get_run s)]
  cases ha : (stm s.state).action with
  | none =>
    simp only
    have : gives s.state = .None := by unfold gives; rw [ha]
    rw [this] at hg
    exact transition_post hk rfl hp hg hn hf
  | some oa =>
    obtain ⟨op, arg⟩ := oa
    simp only
    cases h1 : Scanner.action n mask op arg s with
    | mk r s1 =>
      have g1 : s1.state = s.state := by
        have := (Fixed.action n mask op arg).state s
        rw [h1] at this
        exact this
      cases r with
      | stop er =>
        rw [M.bind_stop h1]
        cases er
        case eom => intro _; show fits p s1.state = true; rw [g1]; exact hp
        all_goals trivial
      | ok r =>
        rw [M.bind_ok h1]
        cases r with
        | none => exact .inl ⟨rfl, by show fits p s1.state = true; rw [g1]; exact hp⟩
        | some t =>
          have ht := action_gives ha h1
          simp only
          split
          · rename_i h0
            have hne : t ≠ .None := by
              rw [ht]
              revert h0
              cases s.state <;> decide
            have hst : step p t = some q := by
              rw [← ht] at hg
              unfold goes at hg
              rwa [if_neg hne] at hg
            cases hfb : (stm s.state).fallback with
            | some fb => exact .inr ⟨q, hst, hf _ hfb⟩
            | none => exact .inr ⟨q, hst, by show fits q s1.state = true; rw [g1]; exact hz hfb h0⟩
          · exact transition_post hk g1 hp (ht ▸ hg) hn hf

/-- What comes out of a call of `nextItem` at a stage. -/
def PostItem (b : Bool) (p : Stage) : Res ElementType × Scanner ρ → Prop
  | (.ok t, s) => (t = .ErrorOccurred ∧ fits p s.state = true) ∨ ∃ q, step p t = some q ∧ fits q s.state = true
  | (.stop .eom, s) => b = true → fits p s.state = true
  | (.stop _, _) => True

theorem itemLoop_post {b : Bool} {n mask : Nat} (hk : b = true → Skips ρ) : ∀ (k : Nat) {p : Stage} {s : Scanner ρ}, fits p s.state = true →
    PostItem b p (Scanner.itemLoop n mask k s)
  | 0, _, _, _ => trivial
  | k + 1, p, s, hp => by
    unfold Scanner.itemLoop
    have h := body_post (n := n) (mask := mask) hk hp
    cases h1 : Scanner.body n mask s with
    | mk r s1 =>
      rw [h1] at h
      cases r with
      | stop er =>
        rw [M.bind_stop h1]
        cases er
        case eom => exact h
        all_goals trivial
      | ok r =>
        rw [M.bind_ok h1]
        cases r with
        | none => exact itemLoop_post hk k h
        | some t => exact h

theorem run_append (ts us : List ElementType) : ∀ p, run p (ts ++ us) = (run p ts).bind fun q => run q us := by
  induction ts with
  | nil => intro p; rfl
  | cons t ts ih =>
    intro p
    rw [List.cons_append, run, run]
    cases step p t with
    | none => rfl
    | some q => exact ih q

theorem sound_cons_error (ts : List ElementType) : sound (.ErrorOccurred :: ts) = sound ts := rfl

theorem step_error (p : Stage) : step p .ErrorOccurred = none := by cases p <;> rfl

theorem sound_cons {t : ElementType} (ts : List ElementType) (h : t ≠ .ErrorOccurred) : sound (t :: ts) = t :: sound ts := by
  unfold sound
  rw [List.filter_cons_of_pos (by simpa using h)]

omit [Reader ρ] in
theorem clearIf_state (c : Bool) (s : Scanner ρ) : ∃ s', Scanner.clearIf c s = (.ok (), s') ∧ s'.state = s.state := by
  cases c
  · exact ⟨s, rfl, rfl⟩
  · exact ⟨(Scanner.getError s).2, rfl, rfl⟩

/-- The order of the items of a session. -/
theorem session_order {n : Nat} {sp : Bool} (calls : List (Nat × Bool)) : ∀ {p : Stage} {s s' : Scanner ρ} {obs : List Obs},
    fits p s.state = true → Scanner.session n sp calls s = (.ok obs, s') →
      ∃ q, run p (sound (obs.map (·.type))) = some q ∧ fits q s'.state = true := by
  induction calls with
  | nil =>
    intro p s s' obs hp h
    cases h
    exact ⟨p, rfl, hp⟩
  | cons mc cs ih =>
    obtain ⟨mask, c⟩ := mc
    intro p s s' obs hp h
    rw [Scanner.session] at h
    obtain ⟨r, s1, h1, h⟩ := M.bind_eq h
    obtain ⟨s1', _, hg, h⟩ := M.bind_eq h
    cases hg
    obtain ⟨_, s2, hc, h⟩ := M.bind_eq h
    obtain ⟨os, s3, h3, h⟩ := M.bind_eq h
    cases h
    have hi := itemLoop_post (b := false) (n := n) (mask := mask) nofun n hp
    change Scanner.itemLoop n mask n s = _ at h1
    rw [h1] at hi
    obtain ⟨s2', hc', g2⟩ := clearIf_state c s1
    rw [hc'] at hc
    cases hc
    rw [List.map_cons]
    change ∃ q, run p (sound (r :: os.map (·.type))) = some q ∧ _
    rcases hi with ⟨rfl, hf⟩ | ⟨q, hq, hf⟩
    · rw [sound_cons_error]
      exact ih (by rw [g2]; exact hf) h3
    · have hr : r ≠ .ErrorOccurred := by
        rintro rfl
        rw [step_error] at hq
        cases hq
      rw [sound_cons _ hr, run, hq]
      exact ih (by rw [g2]; exact hf) h3

/-! ## Skipping the character looked at -/

section Skipping

variable {ι : Type} [Iter ι]

/-- The operation leaves at least as many bytes in the character buffer as there were, and at least `n`. -/
def Fills {α : Type} (n : Nat) (x : M (CB ι) α) : Prop := ∀ c a c', x c = (.ok a, c') → c.bufpos ≤ c'.bufpos ∧ n ≤ c'.bufpos

omit [Iter ι] in
theorem Fills.pure {α : Type} (a : α) : Fills 0 (Pure.pure a : M (CB ι) α) := by
  intro c a' c' h
  cases h
  exact ⟨Nat.le_refl _, Nat.zero_le _⟩

omit [Iter ι] in
theorem Fills.bind {α β : Type} {n m : Nat} {x : M (CB ι) α} {g : α → M (CB ι) β} (h : Fills n x) (k : ∀ a, Fills m (g a)) :
    Fills (max n m) (x >>= g) := by
  intro c b c' hx
  obtain ⟨a, c1, h1, h2⟩ := M.bind_eq hx
  have := h _ _ _ h1
  have := k _ _ _ _ h2
  omega

omit [Iter ι] in
theorem Fills.load (i : Nat) : Fills 0 (CB.load i : M (CB ι) Nat) := by
  intro c a c' h
  unfold CB.load at h
  split at h <;> cases h
  exact ⟨Nat.le_refl _, Nat.zero_le _⟩

theorem fetch1_pos {c c' : CB ι} (h : CB.fetch1 c = (.ok (), c')) : c'.bufpos = c.bufpos + 1 := by
  unfold CB.fetch1 at h
  obtain ⟨b, c1, h1, h⟩ := M.bind_eq h
  obtain ⟨p, c2, h2, h⟩ := M.bind_eq h
  obtain ⟨_, c3, h3, h⟩ := M.bind_eq h
  obtain ⟨_, c4, h4, h⟩ := M.bind_eq h
  have e1 : c1 = c := by
    unfold CB.deref at h1
    split at h1 <;> cases h1
    rfl
  have e2 : c2 = c1 := by cases h2; rfl
  have e3 : c3.bufpos = c2.bufpos := by
    unfold CB.store at h3
    split at h3 <;> cases h3
    rfl
  have e4 : c4.bufpos = c3.bufpos := by
    unfold CB.incr at h4
    cases hi : Iter.incr c3.itr with
    | mk r it => rw [hi] at h4; cases h4; rfl
  cases h
  show c4.bufpos + 1 = _
  rw [e4, e3, e2, e1]

theorem Fills.fetchN : ∀ n, Fills 0 (CB.fetchN n : M (CB ι) Unit)
  | 0 => .pure _
  | n + 1 => .bind (n := 0) (m := 0) (fun _ _ _ h => ⟨by have := fetch1_pos h; omega, Nat.zero_le _⟩) fun _ => Fills.fetchN n

theorem Fills.fetchUpTo (n : Nat) : Fills 0 (CB.fetchUpTo n : M (CB ι) Unit) :=
  .bind (n := 0) (m := 0) (fun c _ c' h => by cases h; exact ⟨Nat.le_refl _, Nat.zero_le _⟩) fun _ => .fetchN _

theorem Fills.fetchFirst : Fills 1 (Enc.fetchFirst : M (CB ι) Unit) := by
  intro c a c' h
  unfold Enc.fetchFirst at h
  obtain ⟨p, c1, h1, h⟩ := M.bind_eq h
  cases h1
  split at h
  · have := fetch1_pos h
    omega
  · cases h
    omega

theorem Fills.fetch2 : Fills 2 (Enc.fetch2 : M (CB ι) Unit) := by
  intro c a c' h
  unfold Enc.fetch2 at h
  obtain ⟨p, c1, h1, h⟩ := M.bind_eq h
  cases h1
  split at h
  · split at h
    · obtain ⟨_, c2, h2, h⟩ := M.bind_eq h
      have := fetch1_pos h2
      have := fetch1_pos h
      omega
    · have := fetch1_pos h
      omega
  · cases h
    omega

/-- The bytes `asciichar` fetches at least, as many as `skip` looks at. -/
def sees : Enc → Nat
  | .utf8 => 1
  | .utf16 _ => 2
  | _ => 0

theorem Fills.utf16Size (be : Bool) : Fills 2 (Enc.utf16Size be : M (CB ι) Nat) :=
  .bind (n := 2) (m := 0) .fetch2 fun _ => .bind (n := 0) (m := 0) (.load _) fun _ => by
    split <;> exact .pure _

theorem Fills.utf16Value (be : Bool) : Fills 2 (Enc.utf16Value be : M (CB ι) Nat) :=
  .bind (n := 2) (m := 0) (.utf16Size be) fun _ => .bind (n := 0) (m := 0) (.load _) fun _ =>
    .bind (n := 0) (m := 0) (.load _) fun _ => by
      dsimp only
      split
      · exact .bind (n := 0) (m := 0) (.fetchUpTo _) fun _ => .bind (n := 0) (m := 0) (.load _) fun _ =>
          .bind (n := 0) (m := 0) (.load _) fun _ => .pure _
      · exact .pure _

theorem Fills.asciichar (e : Enc) : e = .utf8 ∨ (∃ be, e = .utf16 be) → Fills (sees e) (Enc.asciichar e : M (CB ι) Nat) := by
  rintro (rfl | ⟨be, rfl⟩)
  · exact .bind (n := 1) (m := 0) .fetchFirst fun _ => .bind (n := 0) (m := 0) (.load _) fun _ => .pure _
  · exact .bind (n := 2) (m := 0) (.utf16Value be) fun _ => .pure _

/-- The operation does not end with a need for input. -/
def Never {α : Type} (x : M (CB ι) α) : Prop := ∀ c, (x c).1 ≠ .stop .eom

omit [Iter ι] in
theorem Never.pure {α : Type} (a : α) : Never (Pure.pure a : M (CB ι) α) := fun _ h => nomatch h

omit [Iter ι] in
theorem Never.bind {α β : Type} {x : M (CB ι) α} {g : α → M (CB ι) β} (h : Never x) (k : ∀ a, Never (g a)) : Never (x >>= g) := by
  intro c
  have h := h c
  cases hx : x c with
  | mk r c' =>
    rw [hx] at h
    cases r with
    | ok a => rw [M.bind_ok hx]; exact k a c'
    | stop e => rw [M.bind_stop hx]; intro he; exact h (by cases he; rfl)

theorem Never.skipN (hi : ∀ it : ι, (Iter.incr it).1 ≠ .stop .eom) : ∀ n, Never (CB.skipN n : M (CB ι) Unit)
  | 0 => fun _ => nofun
  | n + 1 => .bind (fun c => by
      unfold CB.incr
      have := hi c.itr
      cases h : Iter.incr c.itr with
      | mk r it => rw [h] at this; exact this) fun _ => .bind (fun _ => nofun) fun _ => Never.skipN hi n

theorem Never.skipUpTo (hi : ∀ it : ι, (Iter.incr it).1 ≠ .stop .eom) (n : Nat) : Never (CB.skipUpTo n : M (CB ι) Unit) :=
  .bind (fun _ => nofun) fun _ => .skipN hi _

omit [Iter ι] in
theorem Never.load (i : Nat) : Never (CB.load i : M (CB ι) Nat) := by
  intro c
  unfold CB.load
  split <;> exact nofun

theorem skip_never (hi : ∀ it : ι, (Iter.incr it).1 ≠ .stop .eom) {e : Enc} {c : CB ι} (h : sees e ≤ c.bufpos) :
    (Enc.skip e c).1 ≠ .stop .eom := by
  cases e with
  | ucs2 | ucs4 | isolatin => exact Never.skipUpTo hi _ c
  | utf8 =>
    have h1 : Enc.fetchFirst c = (.ok (), c) := by
      unfold Enc.fetchFirst
      have : (CB.bufposM : M (CB ι) Nat) c = (.ok c.bufpos, c) := rfl
      rw [M.bind_ok this, if_neg (by simp only [sees] at h; omega)]
      rfl
    show ((Enc.utf8Size >>= fun n => CB.skipUpTo n) c).1 ≠ _
    unfold Enc.utf8Size
    rw [M.bind_assoc, M.bind_ok h1]
    exact Never.bind (.bind (.load 0) fun _ => Never.pure _) (fun _ => .skipUpTo hi _) c
  | utf16 be =>
    have h1 : Enc.fetch2 c = (.ok (), c) := by
      unfold Enc.fetch2
      have : (CB.bufposM : M (CB ι) Nat) c = (.ok c.bufpos, c) := rfl
      rw [M.bind_ok this, if_neg (by simp only [sees] at h; omega)]
      rfl
    show ((Enc.utf16Size be >>= fun n => CB.skipUpTo n) c).1 ≠ _
    unfold Enc.utf16Size
    rw [M.bind_assoc, M.bind_ok h1]
    refine Never.bind (.bind (.load _) fun _ => ?_) (fun _ => .skipUpTo hi _) c
    split <;> exact Never.pure _

theorem skips_of_incr (hi : ∀ it : ι, (Iter.incr it).1 ≠ .stop .eom) : Skips (TextScanner ι) := by
  intro t c t' h
  change TextScanner.control t = _ at h
  unfold TextScanner.control at h
  obtain ⟨_, t1, h1, h⟩ := M.bind_eq h
  obtain ⟨t2, _, h2, h⟩ := M.bind_eq h
  cases h2
  cases h
  unfold TextScanner.getcur at h1
  obtain ⟨b, t3, h3, h1⟩ := M.bind_eq h1
  cases h1
  unfold TextScanner.onCB at h3
  cases ha : Enc.asciichar t.charset t.cb with
  | mk r cb =>
    rw [ha] at h3
    cases h3
    have hs : sees t.charset ≤ cb.bufpos := by
      cases he : t.charset with
      | ucs2 | ucs4 | isolatin => exact Nat.zero_le _
      | utf8 => rw [he] at ha; exact (Fills.asciichar _ (.inl rfl) _ _ _ ha).2
      | utf16 be => rw [he] at ha; exact (Fills.asciichar _ (.inr ⟨be, rfl⟩) _ _ _ ha).2
    have := skip_never hi hs
    show ((TextScanner.onCB Enc.skip >>= fun _ => _) _).1 ≠ _
    rw [M.bind_run]
    unfold TextScanner.onCB
    dsimp only
    cases hk : Enc.skip t.charset cb with
    | mk r cb' =>
      rw [hk] at this
      cases r with
      | ok _ => exact nofun
      | stop er =>
        intro he
        exact this (by cases he; rfl)

end Skipping

theorem skips_src : Skips (TextScanner SrcIt) := skips_of_incr (ι := SrcIt) fun it => by
  show (SrcIt.incr it).1 ≠ _
  exact fun h => nomatch h

/-! ## Chunks -/

theorem nextFed_order {n : Nat} {fresh : Bool} {mask : Nat} (hk : Skips (TextScanner SrcIt)) : ∀ (cs : List (List Byte))
    {p : Stage} {s s' : Scanner (TextScanner SrcIt)} {r : ElementType} {cs' : List (List Byte)}, fits p s.state = true →
    Scanner.nextFed n fresh mask cs s = (.ok (r, cs'), s') →
      (r = .ErrorOccurred ∧ fits p s'.state = true) ∨ ∃ q, step p r = some q ∧ fits q s'.state = true := by
  intro cs
  induction cs with
  | nil =>
    intro p s s' r cs' hp h
    have hi := itemLoop_post (b := true) (n := n) (mask := mask) (fun _ => hk) n hp
    rw [Scanner.nextFed] at h
    simp only at h
    cases h1 : Scanner.nextItem n mask s with
    | mk r1 s1 =>
      rw [h1] at h
      change Scanner.itemLoop n mask n s = _ at h1
      rw [h1] at hi
      cases r1 with
      | ok t => cases h; exact hi
      | stop er => cases h
  | cons c cs ih =>
    intro p s s' r cs' hp h
    have hi := itemLoop_post (b := true) (n := n) (mask := mask) (fun _ => hk) n hp
    rw [Scanner.nextFed] at h
    simp only at h
    cases h1 : Scanner.nextItem n mask s with
    | mk r1 s1 =>
      rw [h1] at h
      change Scanner.itemLoop n mask n s = _ at h1
      rw [h1] at hi
      cases r1 with
      | ok t => cases h; exact hi
      | stop er =>
        cases er
        case eom =>
          refine ih (p := p) ?_ h
          have : (Scanner.feed fresh c (!cs.isEmpty) s1).state = s1.state := by
            unfold Scanner.feed
            split <;> rfl
          rw [this]
          exact hi rfl
        all_goals cases h

/-- The order of the items of a session with chunks. -/
theorem sessionFed_order {n : Nat} {fresh sp : Bool} (hk : Skips (TextScanner SrcIt)) (calls : List (Nat × Bool)) :
    ∀ {chunks : List (List Byte)} {p : Stage} {s s' : Scanner (TextScanner SrcIt)} {obs : List Obs},
    fits p s.state = true → Scanner.sessionFed n fresh sp calls chunks s = (.ok obs, s') →
      ∃ q, run p (sound (obs.map (·.type))) = some q ∧ fits q s'.state = true := by
  induction calls with
  | nil =>
    intro chunks p s s' obs hp h
    cases h
    exact ⟨p, rfl, hp⟩
  | cons mc cs ih =>
    obtain ⟨mask, c⟩ := mc
    intro chunks p s s' obs hp h
    rw [Scanner.sessionFed] at h
    obtain ⟨⟨r, chunks'⟩, s1, h1, h⟩ := M.bind_eq h
    obtain ⟨s1', _, hg, h⟩ := M.bind_eq h
    cases hg
    obtain ⟨_, s2, hc, h⟩ := M.bind_eq h
    obtain ⟨os, s3, h3, h⟩ := M.bind_eq h
    cases h
    have hi := nextFed_order hk chunks hp h1
    obtain ⟨s2', hc', g2⟩ := clearIf_state c s1
    rw [hc'] at hc
    cases hc
    rw [List.map_cons]
    change ∃ q, run p (sound (r :: os.map (·.type))) = some q ∧ _
    rcases hi with ⟨rfl, hf⟩ | ⟨q, hq, hf⟩
    · rw [sound_cons_error]
      exact ih (by rw [g2]; exact hf) h3
    · have hr : r ≠ .ErrorOccurred := by
        rintro rfl
        rw [step_error] at hq
        cases hq
      rw [sound_cons _ hr, run, hq]
      exact ih (by rw [g2]; exact hf) h3

/-! ## Order and tidiness -/

open Spec.Path in
/-- What is known at a stage of the path and of the item before. -/
def Knows (p : Stage) (path : List (List Byte)) (prev : Option Item) : Prop :=
  (p = .start ∨ p = .header ∨ p = .headerName → path = []) ∧
  (p = .tag → ∃ x, prev = some x ∧ (x.1 = .OpenTag ∨ x.1 = .TagAttribValue)) ∧
  (p = .tagName → ∃ x, prev = some x ∧ x.1 = .TagAttribName)

open Spec.Path in
theorem tidy_of_run (items : List Item) : ∀ {p : Stage} {path : List (List Byte)} {prev : Option Item} {q : Stage},
    Knows p path prev → run p (items.map (·.1)) = some q → Tidy path prev items := by
  induction items with
  | nil => intros; trivial
  | cons it items ih =>
    obtain ⟨t, x⟩ := it
    intro p path prev q hk h
    rw [List.map_cons, run] at h
    cases hs : step p t with
    | none => simp only [hs] at h; cases h
    | some r =>
      simp only [hs] at h
      refine ⟨?_, ?_, ?_, ih ?_ h⟩
      · rintro rfl
        refine hk.2.1 ?_
        cases p <;> first | rfl | cases hs
      · rintro rfl
        refine hk.2.2 ?_
        cases p <;> first | rfl | cases hs
      · rintro (h | h) <;> (simp only at h; subst h)
        all_goals
          refine hk.1 ?_
          cases p <;> first | exact .inl rfl | exact .inr (.inl rfl) | exact .inr (.inr rfl) | cases hs
      · refine ⟨?_, ?_, ?_⟩
        · intro hr
          have h1 : path = [] := by
            refine hk.1 ?_
            cases p <;> cases t <;> cases hs <;> simp_all
          subst h1
          cases t <;> first | rfl | (cases p <;> cases hs <;> simp at hr)
        · rintro rfl
          refine ⟨_, rfl, ?_⟩
          cases p <;> cases t <;> cases hs <;> simp
        · rintro rfl
          refine ⟨_, rfl, ?_⟩
          cases p <;> cases t <;> cases hs <;> rfl

end TW.ItemOrder
