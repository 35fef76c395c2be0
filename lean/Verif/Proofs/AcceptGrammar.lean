import Verif.Proofs.AcceptLang

/-!
# The automaton behind the scanner takes the documents of the grammar

The converse of `lang_of_auto`: the texts of the grammar of `Spec/Loose` lead to the exit.
-/

namespace TW.Accept

open Spec Mach
open Spec.Loose hiding Attr Mark Document Val Piece

variable {q q' : STMState} {as r : List Byte} {ts : Types} {b : Byte}

/-! ## Classes of characters -/

theorem gap_next (hb : Gap b) (h : ∀ c ∈ [Cc.EndOfLine, .Cntrl, .Space], (stm q).next c = some q') :
    (stm q).next (controlCharMap b) = some q' := h _ (gap_iff.1 hb)

theorem word_class {b : Byte} (h : Kind.word.ends b = false) : controlCharMap b ∈ [Cc.Undef, .Any, .Dash, .Amp] := by
  by_cases hb : b < 256
  · have : ∀ b : _root_.Fin 256, Kind.word.ends b.1 = false → controlCharMap b.1 ∈ [Cc.Undef, .Any, .Dash, .Amp] := by decide +kernel
    exact this ⟨b, hb⟩ h
  · rw [ccm_large (by omega)]; simp

theorem word_none (hb : Kind.word.ends b = false) (h : ∀ c ∈ [Cc.Undef, .Any, .Dash, .Amp], (stm q).next c = none) :
    (stm q).next (controlCharMap b) = none := h _ (word_class hb)

/-! ## Steps of the automaton -/

theorem Auto.next (h1 : (stm q).action = none) (h2 : (stm q).next (controlCharMap b) = some q') (h : Auto q' as ts) : Auto q (b :: as) ts :=
  .plain h1 (.inl ⟨b, rfl, h2⟩) h

theorem Auto.fall (h1 : (stm q).action = none) (hf : (stm q).fallback = some q') (hb : as.head? = some b)
    (h2 : (stm q).next (controlCharMap b) = none) (h : Auto q' as ts) : Auto q as ts :=
  .plain h1 (.inr ⟨rfl, hf, b, hb, h2⟩) h

/-- White space that stays in a state. -/
theorem Auto.gaps (h1 : (stm q).action = none) (h2 : ∀ c ∈ [Cc.EndOfLine, .Cntrl, .Space], (stm q).next c = some q) {g : List Byte}
    (hg : Gaps g) (h : Auto q as ts) : Auto q (g ++ as) ts := by
  induction g with
  | nil => exact h
  | cons b g ih =>
    exact Auto.next h1 (gap_next (hg b (List.mem_cons_self ..)) h2) (ih fun x hx => hg x (List.mem_cons_of_mem _ hx))

/-- The automaton has no choice. -/
theorem Auto.strip (h1 : (stm q).action = none) (h2 : (stm q).next (controlCharMap b) = some q') (h : Auto q (b :: as) ts) : Auto q' as ts := by
  generalize ha : b :: as = as0 at h
  cases h with
  | exit => cases ha
  | plain _ hm h =>
    rcases hm with ⟨b', rfl, hn⟩ | ⟨rfl, -, b', hb, hn⟩
    · cases ha
      rw [h2] at hn
      cases hn
      exact h
    · subst ha
      cases hb
      rw [h2] at hn
      cases hn
  | tok h3 => rw [h1] at h3; cases h3
  | key h3 => rw [h1] at h3; cases h3
  | ret0 h3 => rw [h1] at h3; cases h3
  | ret h3 => rw [h1] at h3; cases h3

/-- A token. -/
theorem Auto.token {op : STMAction} {arg : ElementType} {k : Kind} {t as' : List Byte} (h1 : (stm q).action = some (op, arg))
    (h2 : kindOf op = some k) (ht : Chars k t) (hb : ∀ b ∈ as.head?, k.ends b = true) (hm : Move q as q' as') (h : Auto q' as' ts) :
    Auto q (t ++ as) (arg :: ts) := by
  have h3 : ∃ isTok, tokenDefs op = some isTok := by cases op <;> first | exact ⟨_, rfl⟩ | cases h2
  obtain ⟨isTok, h3⟩ := h3
  refine .tok h1 h3 (fun a ha => (inToken_iff h3 h2 a).2 (ht a ha)) (fun b hb' => ?_) hm h
  rw [inToken_iff h3 h2 b, hb b hb']
  nofun

/-! ## Texts -/

/-- What is behind a text. -/
def Behind (r : List Byte) (ts : Types) : Prop := r = [0] ∧ ts = [.Exit] ∨ ∃ as, r = 60 :: as ∧ Auto .XMLTAG as ts

theorem Behind.move (h : Behind r ts) : (∃ q' as', Move .TOKEN r q' as' ∧ Auto q' as' ts) ∧ ∀ b ∈ r.head?, Kind.content.ends b = true := by
  rcases h with ⟨rfl, rfl⟩ | ⟨as, rfl, h⟩
  · exact ⟨⟨.EXIT, [], .inl ⟨0, rfl, by decide +kernel⟩, .exit⟩, fun b h => by cases h; rfl⟩
  · exact ⟨⟨.XMLTAG, as, .inl ⟨60, rfl, by decide +kernel⟩, h⟩, fun b h => by cases h; rfl⟩

theorem Behind.text (h : Behind r ts) {t : List Byte} (ht : Chars .content t) : Auto .TOKEN (t ++ r) (.Content :: ts) := by
  obtain ⟨⟨q', as', hm, ha⟩, hb⟩ := h.move
  exact Auto.token rfl rfl ht hb hm ha

theorem Behind.content (h : Behind r ts) : Auto .CONTENT r ts := by
  rcases h with ⟨rfl, rfl⟩ | ⟨as, rfl, h⟩
  · exact Auto.next rfl (q' := .EXIT) (by decide +kernel) .exit
  · exact Auto.next rfl (q' := .XMLTAG) (by decide +kernel) h

/-- Behind a tag, where white space is content. -/
theorem Behind.body (h : Behind r ts) {t : List Byte} (ht : Chars .content t) : Auto .CONTENT (t ++ r) (textTypes false t ++ ts) := by
  cases t with
  | nil => exact h.content
  | cons b t =>
    have hb := ht b (List.mem_cons_self ..)
    simp only [Kind.ends, Bool.or_eq_false_iff, decide_eq_false_iff_not] at hb
    refine Auto.fall (b := b) rfl rfl rfl ?_ (h.text ht)
    have hc := tells b
    cases hk : controlCharMap b <;> rw [hk] at hc <;> first | rfl | (exact absurd hc hb.1) | exact absurd hc hb.2

/-- Where white space is dropped. -/
theorem Behind.seek (h : Behind r ts) (hq : q = .SEEKTOK ∨ q = .DOCSTART) {t : List Byte} (ht : Chars .content t) :
    Auto q (t ++ r) (textTypes true t ++ ts) := by
  have h1 : (stm q).action = none := by rcases hq with rfl | rfl <;> rfl
  have h2 : (stm q).fallback = some .TOKEN := by rcases hq with rfl | rfl <;> rfl
  have h3 : ∀ c ∈ [Cc.EndOfLine, .Cntrl, .Space], (stm q).next c = some q := by rcases hq with rfl | rfl <;> decide
  induction t with
  | nil =>
    rcases h with ⟨rfl, rfl⟩ | ⟨as, rfl, h⟩
    · exact Auto.next h1 (q' := .EXIT) (by rcases hq with rfl | rfl <;> decide +kernel) .exit
    · exact Auto.next h1 (q' := .XMLTAG) (by rcases hq with rfl | rfl <;> decide +kernel) h
  | cons b t ih =>
    by_cases hg : Gap b
    · have := ih fun a ha => ht a (List.mem_cons_of_mem _ ha)
      have he : textTypes true (b :: t) = textTypes true t := by simp [textTypes, hg]
      rw [he]
      exact Auto.next h1 (gap_next hg h3) this
    · have he : textTypes true (b :: t) = [.Content] := by simp [textTypes, hg]
      rw [he]
      have hb := ht b (List.mem_cons_self ..)
      simp only [Kind.ends, Bool.or_eq_false_iff, decide_eq_false_iff_not] at hb
      refine Auto.fall (b := b) h1 h2 rfl ?_ (h.text ht)
      have hc := tells b
      have hg' := mt gap_iff.2 hg
      cases hk : controlCharMap b <;> rw [hk] at hc hg' <;>
        first
          | (rcases hq with rfl | rfl <;> rfl)
          | (exact absurd hc hb.1)
          | (exact absurd hc hb.2)
          | (exact absurd (by decide) hg')

/-- Behind a mark. -/
def Goes (seek : Bool) (r : List Byte) (ts : Types) : Prop := Auto (if seek then .SEEKTOK else .CONTENT) r ts

/-! ## Attributes and the end of a tag -/

/-- The end of a tag or a header. -/
def Ends : Bool → List Byte → Types → Prop
  | false, r, ts => (∃ as, r = 62 :: as ∧ Auto .CONTENT as ts) ∨ ∃ as, r = 47 :: as ∧ Auto .TAGCLIM as ts
  | true, r, ts => ∃ as, r = 63 :: as ∧ Auto .XTAGEND as ts

/-- The states before the end of a name or a value, where attributes may follow. -/
def Wait (h : Bool) (q : STMState) : Prop := q ∈ (if h then [STMState.XTAGAVID, .XTAGAVQE, .XTAG] else [STMState.OPENTAG, .TAGAVID, .TAGAVQE])

instance (h : Bool) (q : STMState) : Decidable (Wait h q) := by unfold Wait; infer_instance

theorem Wait.cases {h : Bool} (hw : Wait h q) : (h = true ∧ (q = .XTAGAVID ∨ q = .XTAGAVQE ∨ q = .XTAG)) ∨
    (h = false ∧ (q = .OPENTAG ∨ q = .TAGAVID ∨ q = .TAGAVQE)) := by
  cases h <;> simpa [Wait] using hw

theorem Ends.move {h : Bool} (he : Ends h r ts) (hw : Wait h q) : ∃ q' as', Move q r q' as' ∧ Auto q' as' ts := by
  rcases hw.cases with ⟨rfl, hq⟩ | ⟨rfl, hq⟩
  · obtain ⟨as, rfl, ha⟩ := he
    exact ⟨.XTAGEND, as, .inl ⟨63, rfl, by rcases hq with rfl | rfl | rfl <;> decide +kernel⟩, ha⟩
  · rcases he with ⟨as, rfl, ha⟩ | ⟨as, rfl, ha⟩
    · exact ⟨.CONTENT, as, .inl ⟨62, rfl, by rcases hq with rfl | rfl | rfl <;> decide +kernel⟩, ha⟩
    · exact ⟨.TAGCLIM, as, .inl ⟨47, rfl, by rcases hq with rfl | rfl | rfl <;> decide +kernel⟩, ha⟩

theorem Ends.aisk {h : Bool} (he : Ends h r ts) : Auto (if h then .XTAGAISK else .TAGAISK) r ts := by
  cases h
  · rcases he with ⟨as, rfl, ha⟩ | ⟨as, rfl, ha⟩
    · exact Auto.next (q := .TAGAISK) (q' := .CONTENT) rfl (by decide +kernel) ha
    · exact Auto.next (q := .TAGAISK) (q' := .TAGCLIM) rfl (by decide +kernel) ha
  · obtain ⟨as, rfl, ha⟩ := he
    exact Auto.next (q := .XTAGAISK) (q' := .XTAGEND) rfl (by decide +kernel) ha

theorem Ends.head {h : Bool} (he : Ends h r ts) : ∃ c as, r = c :: as ∧ (c = 62 ∨ c = 47 ∨ c = 63) := by
  cases h
  · rcases he with ⟨as, rfl, -⟩ | ⟨as, rfl, -⟩
    · exact ⟨_, _, rfl, .inl rfl⟩
    · exact ⟨_, _, rfl, .inr (.inl rfl)⟩
  · obtain ⟨as, rfl, -⟩ := he
    exact ⟨_, _, rfl, .inr (.inr rfl)⟩

theorem gap_word {b : Byte} (h : Gap b) : Kind.word.ends b = true := by
  have := gap_iff.1 h
  cases he : Kind.word.ends b
  · have h2 := word_class he
    simp only [List.mem_cons, List.not_mem_nil, or_false] at this h2
    rcases this with h | h | h <;> rw [h] at h2 <;> simp at h2
  · rfl

/-- What is behind a name or value. -/
structure Follows (h : Bool) (r : List Byte) (ts : Types) : Prop where
  move : ∀ {q}, Wait h q → ∃ q' as', Move q r q' as' ∧ Auto q' as' ts
  head : ∃ c as, r = c :: as ∧ Kind.word.ends c = true

theorem Ends.follows {h : Bool} (he : Ends h r ts) : Follows h r ts := by
  refine ⟨he.move, ?_⟩
  obtain ⟨c, as, rfl, hc⟩ := he.head
  exact ⟨c, as, rfl, by rcases hc with rfl | rfl | rfl <;> rfl⟩

theorem Follows.gaps {h : Bool} {g : List Byte} {b : Byte} (hb : Gap b) (hg : Gaps g) (ha : Auto (if h then .XTAGAISK else .TAGAISK) r ts) :
    Follows h (b :: g ++ r) ts := by
  refine ⟨fun {q} hw => ⟨_, _, .inl ⟨b, rfl, gap_next hb ?_⟩, Auto.gaps ?_ ?_ hg ha⟩, b, g ++ r, rfl, gap_word hb⟩
  · rcases hw.cases with ⟨rfl, rfl | rfl | rfl⟩ | ⟨rfl, rfl | rfl | rfl⟩ <;> decide
  · cases h <;> rfl
  · cases h <;> decide

/-- The states of attributes. -/
theorem value_auto {h : Bool} {v : Loose.Val} (hv : v.Ok) (hf : Follows h r ts) (hb : v.blank = true → Ends h r ts) :
    Auto (if h then .XTAGAVSK else .TAGAVSK) (v.spell ++ r) (valT h :: ts) := by
  obtain ⟨qu, t⟩ := v
  have hmove : ∀ {q}, Wait h q → (stm q).action = none → Auto q r ts := fun {q} hw ha => by
    obtain ⟨q', as', hm, h1⟩ := hf.move hw
    exact .plain ha hm h1
  obtain ⟨c, as, hr, hc⟩ := hf.head
  cases qu
  case bare =>
    have hs : Loose.Val.spell ⟨.bare, t⟩ ++ r = t ++ r := by simp [Loose.Val.spell, Quote.mark]
    rw [hs]
    have h1 : ∃ b, (t ++ r).head? = some b ∧ (Kind.word.ends b = false ∨ b = 62 ∨ b = 47 ∨ b = 63) := by
      cases t with
      | nil =>
        obtain ⟨c, as, hr, hc⟩ := (hb rfl).head
        exact ⟨c, by rw [hr]; rfl, .inr hc⟩
      | cons b t => exact ⟨b, rfl, .inl (hv b (List.mem_cons_self ..))⟩
    obtain ⟨b, h1, h2⟩ := h1
    have h3 : Auto (if h then .XTAGAVID else .TAGAVID) (t ++ r) (valT h :: ts) := by
      cases h
      · obtain ⟨q', as', hm, h4⟩ := hf.move (q := .TAGAVID) (by decide)
        exact Auto.token (q := .TAGAVID) rfl rfl hv (by rw [hr]; intro b hb; cases hb; exact hc) hm h4
      · obtain ⟨q', as', hm, h4⟩ := hf.move (q := .XTAGAVID) (by decide)
        exact Auto.token (q := .XTAGAVID) rfl rfl hv (by rw [hr]; intro b hb; cases hb; exact hc) hm h4
    cases h
    · refine Auto.fall (q := .TAGAVSK) (q' := .TAGAVID) rfl rfl h1 ?_ h3
      rcases h2 with h2 | rfl | rfl | rfl
      · exact word_none h2 (by decide)
      all_goals decide +kernel
    · refine Auto.fall (q := .XTAGAVSK) (q' := .XTAGAVID) rfl rfl h1 ?_ h3
      rcases h2 with h2 | rfl | rfl | rfl
      · exact word_none h2 (by decide)
      all_goals decide +kernel
  all_goals
    simp only [Loose.Val.spell, Quote.mark, List.append_assoc, List.cons_append, List.nil_append]
  case sq =>
    cases h
    · exact Auto.next (q := .TAGAVSK) (q' := .TAGAVSQ) rfl (by decide +kernel) (Auto.token (q' := .TAGAVQE) rfl rfl hv
        (by intro b hb; cases hb; rfl) (.inl ⟨39, rfl, by decide +kernel⟩) (hmove (by decide) rfl))
    · exact Auto.next (q := .XTAGAVSK) (q' := .XTAGAVSQ) rfl (by decide +kernel) (Auto.token (q' := .XTAGAVQE) rfl rfl hv
        (by intro b hb; cases hb; rfl) (.inl ⟨39, rfl, by decide +kernel⟩) (hmove (by decide) rfl))
  case dq =>
    cases h
    · exact Auto.next (q := .TAGAVSK) (q' := .TAGAVDQ) rfl (by decide +kernel) (Auto.token (q' := .TAGAVQE) rfl rfl hv
        (by intro b hb; cases hb; rfl) (.inl ⟨34, rfl, by decide +kernel⟩) (hmove (by decide) rfl))
    · exact Auto.next (q := .XTAGAVSK) (q' := .XTAGAVDQ) rfl (by decide +kernel) (Auto.token (q' := .XTAGAVQE) rfl rfl hv
        (by intro b hb; cases hb; rfl) (.inl ⟨34, rfl, by decide +kernel⟩) (hmove (by decide) rfl))

/-- From the name of an attribute on. -/
theorem name_auto {h : Bool} {name before : List Byte} (hn : Chars .word name) (hb : Gaps before)
    (ha : Auto (if h then .XTAGAVSK else .TAGAVSK) as ts) :
    Auto (if h then .XTAGAISK else .TAGAISK) (name ++ before ++ 61 :: as) (nameT h :: ts) := by
  have h61 : Auto (if h then .XTAGAISK else .TAGAISK) (61 :: as) (nameT h :: ts) := by
    cases h
    · exact Auto.fall (q := .TAGAISK) (q' := .TAGANAM) rfl rfl rfl (by decide +kernel)
        (Auto.token (q := .TAGANAM) (q' := .TAGAVSK) (t := []) rfl rfl nofun (by intro b hb; cases hb; rfl) (.inl ⟨61, rfl, by decide +kernel⟩) ha)
    · exact Auto.fall (q := .XTAGAISK) (q' := .XTAGANAM) rfl rfl rfl (by decide +kernel)
        (Auto.token (q := .XTAGANAM) (q' := .XTAGAVSK) (t := []) rfl rfl nofun (by intro b hb; cases hb; rfl) (.inl ⟨61, rfl, by decide +kernel⟩) ha)
  cases name with
  | nil => exact Auto.gaps (by cases h <;> rfl) (by cases h <;> decide) hb h61
  | cons b name =>
    have hw := hn b (List.mem_cons_self ..)
    have h1 : ∃ q' as', Move (if h then .XTAGANAM else .TAGANAM) (before ++ 61 :: as) q' as' ∧ Auto q' as' ts := by
      cases before with
      | nil => exact ⟨_, as, .inl ⟨61, rfl, by cases h <;> decide +kernel⟩, ha⟩
      | cons g gs =>
        refine ⟨if h then .XTAGAESK else .TAGAESK, gs ++ 61 :: as, .inl ⟨g, rfl, gap_next (hb g (List.mem_cons_self ..)) (by cases h <;> decide)⟩, ?_⟩
        refine Auto.gaps (by cases h <;> rfl) (by cases h <;> decide) (fun x hx => hb x (List.mem_cons_of_mem _ hx)) ?_
        exact Auto.next (by cases h <;> rfl) (by cases h <;> decide +kernel) ha
    have h2 : ∀ c ∈ (before ++ 61 :: as).head?, Kind.word.ends c = true := by
      intro c hc
      cases before with
      | nil => cases hc; rfl
      | cons g gs => exact Option.some.inj hc ▸ gap_word (hb g (List.mem_cons_self ..))
    obtain ⟨q', as', hm, h3⟩ := h1
    rw [List.append_assoc]
    cases h
    · exact Auto.fall (q := .TAGAISK) (q' := .TAGANAM) (b := b) rfl rfl rfl (word_none hw (by decide)) (Auto.token (q := .TAGANAM) rfl rfl hn h2 hm h3)
    · exact Auto.fall (q := .XTAGAISK) (q' := .XTAGANAM) (b := b) rfl rfl rfl (word_none hw (by decide)) (Auto.token (q := .XTAGANAM) rfl rfl hn h2 hm h3)

theorem attrs_auto {h : Bool} {tail : List Byte} : ∀ {attrs : List Loose.Attr}, AttrsOk attrs tail → Ends h r ts →
    Follows h (attrs.flatMap Loose.Attr.spell ++ (tail ++ r)) (attrTypes h attrs ++ ts)
  | [], hk, he => by
    cases tail with
    | nil => exact he.follows
    | cons g gs => exact Follows.gaps (hk g (List.mem_cons_self ..)) (fun x hx => hk x (List.mem_cons_of_mem _ hx)) he.aisk
  | a :: attrs, hk, he => by
    obtain ⟨⟨k1, k2, k3, k4, k5, k6⟩, k7, k8⟩ := hk
    have ih := attrs_auto k8 he
    obtain ⟨lead, name, before, behind, val⟩ := a
    cases lead with
    | nil => exact absurd rfl k2
    | cons g gs =>
      have hv := value_auto k6 ih (fun hb => by obtain ⟨rfl, rfl⟩ := k7 hb; exact he)
      have hn := name_auto (h := h) k3 k4 (Auto.gaps (by cases h <;> rfl) (by cases h <;> decide) k5 hv)
      have := Follows.gaps (k1 g (List.mem_cons_self ..)) (fun x hx => k1 x (List.mem_cons_of_mem _ hx)) hn
      have e1 : (⟨g :: gs, name, before, behind, val⟩ :: attrs : List Loose.Attr).flatMap Loose.Attr.spell ++ (tail ++ r) =
          g :: gs ++ (name ++ before ++ 61 :: (behind ++ (val.spell ++ (attrs.flatMap Loose.Attr.spell ++ (tail ++ r))))) := by
        simp [Loose.Attr.spell]
      have e2 : attrTypes h (⟨g :: gs, name, before, behind, val⟩ :: attrs) ++ ts = nameT h :: valT h :: (attrTypes h attrs ++ ts) := by
        cases h <;> rfl
      rw [e1, e2]
      exact this

/-! ## Marks -/

theorem clim_auto (h : Auto .CONTENT r ts) : ∀ {g : List Byte}, Gaps g → Auto .TAGCLIM (g ++ 62 :: r) (List.replicate (g.length + 1) .CloseTagIm ++ ts)
  | [], _ => .ret (q := .TAGCLIM) (q' := .CONTENT) rfl rfl rfl (by decide) (.inl ⟨62, rfl, by decide +kernel⟩) h
  | b :: g, hg => .ret (q := .TAGCLIM) (q' := .TAGCLIM) rfl rfl rfl (by decide)
      (.inl ⟨b, rfl, gap_next (hg b (List.mem_cons_self ..)) (by decide)⟩) (clim_auto h fun x hx => hg x (List.mem_cons_of_mem _ hx))

theorem open_auto {name tail : List Byte} {attrs : List Loose.Attr} {im : Option (List Byte)} (h1 : Chars .word name) (h2 : AttrsOk attrs tail)
    (h3 : ∀ g ∈ im, Gaps g) (h : Auto .CONTENT r ts) :
    Auto .OPENTAG ((Loose.Mark.open_ name attrs tail im).spell ++ r) ((Loose.Mark.open_ name attrs tail im).types ++ ts) := by
  have he : Ends false ((match (generalizing := false) im with | none => [62] | some g => 47 :: g ++ [62]) ++ r)
      ((match (generalizing := false) im with | none => [] | some g => List.replicate (g.length + 1) .CloseTagIm) ++ ts) := by
    cases im with
    | none => exact .inl ⟨r, rfl, h⟩
    | some g => exact .inr ⟨g ++ 62 :: r, by simp, clim_auto h (h3 g rfl)⟩
  have hf := attrs_auto h2 he
  obtain ⟨c, as, hr, hc⟩ := hf.head
  obtain ⟨q', as', hm, h4⟩ := hf.move (q := .OPENTAG) (by decide)
  have := Auto.token (q := .OPENTAG) rfl rfl h1 (by rw [hr]; intro b hb; cases hb; exact hc) hm h4
  simp only [Loose.Mark.spell, Loose.Mark.types, List.append_assoc, List.cons_append] at this ⊢
  exact this

theorem close_auto {name tail : List Byte} (h1 : Chars .word name) (h2 : Gaps tail) (h : Auto .CONTENT r ts) :
    Auto .CLOSETAG (name ++ (tail ++ 62 :: r)) (.CloseTag :: ts) := by
  cases tail with
  | nil => exact Auto.token (q := .CLOSETAG) (q' := .CONTENT) rfl rfl h1 (by intro b hb; cases hb; rfl) (.inl ⟨62, rfl, by decide +kernel⟩) h
  | cons g gs =>
    have hg := h2 g (List.mem_cons_self ..)
    refine Auto.token (q := .CLOSETAG) (q' := .TAGCLSK) (as' := gs ++ 62 :: r) rfl rfl h1 ?_ (.inl ⟨g, rfl, gap_next hg (by decide)⟩) ?_
    · intro b hb; exact Option.some.inj hb ▸ gap_word hg
    · exact Auto.gaps rfl (by decide) (fun x hx => h2 x (List.mem_cons_of_mem _ hx)) (Auto.next (q' := .CONTENT) rfl (by decide +kernel) h)

theorem pi_auto (h : Auto .CONTENT r ts) : ∀ {t : List Byte}, 63 ∉ t → Auto .PITAG (t ++ 63 :: 62 :: r) ts
  | [], _ => Auto.next (q' := .PITAGEND) rfl (by decide +kernel) (Auto.next (q' := .CONTENT) rfl (by decide +kernel) h)
  | b :: t, ht => by
    refine Auto.next (q' := .PITAG) rfl ?_ (pi_auto h fun hb => ht (List.mem_cons_of_mem _ hb))
    have hc := tells b
    cases hk : controlCharMap b <;> first | rfl | (rw [hk] at hc; exact absurd (hc ▸ List.mem_cons_self ..) ht)

theorem subset_auto (h : Auto .ENTITY r ts) : ∀ {t : List Byte}, 93 ∉ t → Auto .ENTITYLC (t ++ 93 :: r) ts
  | [], _ => Auto.next (q' := .ENTITY) rfl (by decide +kernel) h
  | b :: t, ht => by
    refine Auto.next (q' := .ENTITYLC) rfl ?_ (subset_auto h fun hb => ht (List.mem_cons_of_mem _ hb))
    have hc := tells b
    cases hk : controlCharMap b <;> first | rfl | (rw [hk] at hc; exact absurd (hc ▸ List.mem_cons_self ..) ht)

theorem parts_auto {tail : List Byte} (h : Auto .SEEKTOK r ts) : ∀ {ps : List (List Byte × Part)}, PartsOk ps tail →
    Auto .ENTITY (spellParts ps tail ++ r) (ps.flatMap (fun p => p.2.types) ++ .DocAttribEnd :: ts)
  | [], hk => by
    have := Auto.gaps (q := .ENTITY) (g := tail) rfl (by decide) hk (Auto.next (q' := .ENTITYE) (b := 62) rfl (by decide +kernel)
      (.ret0 (q := .ENTITYE) (q' := .SEEKTOK) rfl rfl rfl rfl rfl h))
    simpa [spellParts] using this
  | (g, p) :: ps, hk => by
    obtain ⟨k1, k2, k3, k4⟩ := hk
    have ih := parts_auto h k4
    have e1 : spellParts ((g, p) :: ps) tail ++ r = g ++ (p.spell ++ (spellParts ps tail ++ r)) := by simp [spellParts]
    rw [e1]
    refine Auto.gaps (q := .ENTITY) rfl (by decide) k1 ?_
    cases p with
    | word t =>
      have h3 : ∃ c as, spellParts ps tail ++ r = c :: as ∧ (Gap c ∨ c = 62) := by
        have := k3 rfl
        cases hs : spellParts ps tail with
        | nil => exact absurd hs (spellParts_ne ps tail)
        | cons c as => rw [hs] at this; exact ⟨c, as ++ r, rfl, by simpa using this⟩
      obtain ⟨c, as, hs, hc⟩ := h3
      rw [hs] at ih
      have h4 : ∃ q', Move .ENTITYID (c :: as) q' as ∧ Auto q' as (ps.flatMap (fun p => p.2.types) ++ .DocAttribEnd :: ts) := by
        rcases hc with hc | rfl
        · exact ⟨.ENTITY, .inl ⟨c, rfl, gap_next hc (by decide)⟩, Auto.strip rfl (gap_next hc (by decide)) ih⟩
        · exact ⟨.ENTITYE, .inl ⟨62, rfl, by decide +kernel⟩, Auto.strip rfl (by decide +kernel) ih⟩
      obtain ⟨q', hm, h5⟩ := h4
      have h6 : ∀ b ∈ (c :: as).head?, Kind.word.ends b = true := by
        intro b hb
        cases hb
        rcases hc with hc | rfl
        · exact gap_word hc
        · rfl
      have h7 := Auto.token (q := .ENTITYID) rfl rfl k2.1 h6 hm h5
      rw [hs]
      cases t with
      | nil => exact absurd rfl k2.2
      | cons b t => exact Auto.fall (b := b) rfl rfl rfl (word_none (k2.1 b (List.mem_cons_self ..)) (by decide)) h7
    | sq t =>
      have := Auto.next (q := .ENTITY) (q' := .ENTITYSQ) (b := 39) rfl (by decide +kernel) (Auto.token (q := .ENTITYSQ) (q' := .ENTITY) rfl rfl k2
        (as := 39 :: (spellParts ps tail ++ r)) (by intro b hb; cases hb; rfl) (.inl ⟨39, rfl, by decide +kernel⟩) ih)
      simpa [Part.spell, Part.types] using this
    | dq t =>
      have := Auto.next (q := .ENTITY) (q' := .ENTITYDQ) (b := 34) rfl (by decide +kernel) (Auto.token (q := .ENTITYDQ) (q' := .ENTITY) rfl rfl k2
        (as := 34 :: (spellParts ps tail ++ r)) (by intro b hb; cases hb; rfl) (.inl ⟨34, rfl, by decide +kernel⟩) ih)
      simpa [Part.spell, Part.types] using this
    | subset t =>
      have := Auto.next (q := .ENTITY) (q' := .ENTITYLC) (b := 91) rfl (by decide +kernel) (subset_auto ih k2)
      simpa [Part.spell, Part.types] using this

/-- Behind `n` dashes. -/
def dashState (n : Nat) : STMState := if n = 0 then .COMSEEKE else if n % 2 = 1 then .COMENDD2 else .COMENDCL

/-- Behind `n` brackets. -/
def bracketState (n : Nat) : STMState := if n % 3 = 0 then .CDATA1 else if n % 3 = 1 then .CDATA2 else .CDATA3

theorem comment_auto (h : Auto .SEEKTOK r ts) : ∀ {t : List Byte} {n : Nat}, dashes (count 45 n t) →
    (∀ p s, t = p ++ 62 :: s → ¬ dashes (count 45 n p)) → Auto (dashState n) (t ++ 62 :: r) ts
  | [], n, h1, _ => by
    have h1 : dashes n := h1
    have : dashState n = .COMENDCL := by
      unfold dashes at h1
      unfold dashState
      rw [if_neg h1.1, if_neg (by omega)]
    rw [this]
    exact Auto.next (q' := .SEEKTOK) rfl (by decide +kernel) h
  | b :: t, n, h1, h2 => by
    have ih := comment_auto h (t := t) (n := if b = 45 then n + 1 else 0) h1 (fun p s hp => h2 (b :: p) s (by rw [hp]; rfl))
    have hb : b = 62 → ¬ dashes n := fun hb => h2 [] t (by rw [hb]; rfl)
    refine Auto.next (q := dashState n) (b := b) (by unfold dashState; (repeat' split) <;> rfl) ?_ ih
    have hc := tells b
    by_cases h45 : b = 45
    · subst h45
      have : controlCharMap 45 = .Dash := by decide +kernel
      rw [this, if_pos rfl]
      unfold dashState
      rw [if_neg (Nat.succ_ne_zero n)]
      repeat' split
      all_goals first | rfl | (exfalso; omega)
    · rw [if_neg h45]
      have hd : controlCharMap b ≠ .Dash := fun hk => by rw [hk] at hc; exact h45 hc
      have hg : dashes n → controlCharMap b ≠ .Gt := fun hd hk => by rw [hk] at hc; exact hb hc hd
      unfold dashState
      rw [if_pos rfl]
      repeat' split
      · cases hk : controlCharMap b <;> first | rfl | exact absurd hk hd
      · cases hk : controlCharMap b <;> first | rfl | exact absurd hk hd
      · have hn : dashes n := by unfold dashes; omega
        cases hk : controlCharMap b <;> first | rfl | exact absurd hk hd | exact absurd hk (hg hn)

theorem cdata_auto (h : Auto .CONTENT r ts) : ∀ {t : List Byte} {n : Nat}, brackets (count 93 n t) →
    (∀ p s, t = p ++ 62 :: s → ¬ brackets (count 93 n p)) → Auto (bracketState n) (t ++ 62 :: r) ts
  | [], n, h1, _ => by
    have h1 : brackets n := h1
    have : bracketState n = .CDATA3 := by
      unfold brackets at h1
      unfold bracketState
      rw [if_neg (by omega), if_neg (by omega)]
    rw [this]
    exact Auto.next (q' := .CONTENT) rfl (by decide +kernel) h
  | b :: t, n, h1, h2 => by
    have ih := cdata_auto h (t := t) (n := if b = 93 then n + 1 else 0) h1 (fun p s hp => h2 (b :: p) s (by rw [hp]; rfl))
    have hb : b = 62 → ¬ brackets n := fun hb => h2 [] t (by rw [hb]; rfl)
    refine Auto.next (q := bracketState n) (b := b) (by unfold bracketState; (repeat' split) <;> rfl) ?_ ih
    have hc := tells b
    by_cases h93 : b = 93
    · subst h93
      have : controlCharMap 93 = .Csb := by decide +kernel
      rw [this, if_pos rfl]
      unfold bracketState
      repeat' split
      all_goals first | rfl | (exfalso; omega)
    · rw [if_neg h93]
      have hd : controlCharMap b ≠ .Csb := fun hk => by rw [hk] at hc; exact h93 hc
      have hg : brackets n → controlCharMap b ≠ .Gt := fun hd hk => by rw [hk] at hc; exact hb hc hd
      unfold bracketState
      rw [if_pos rfl]
      repeat' split
      · cases hk : controlCharMap b <;> first | rfl | exact absurd hk hd
      · cases hk : controlCharMap b <;> first | rfl | exact absurd hk hd
      · have hn : brackets n := by unfold brackets; omega
        cases hk : controlCharMap b <;> first | rfl | exact absurd hk hd | exact absurd hk (hg hn)

/-- The marks. -/
theorem mark_auto {first : Bool} {m : Loose.Mark} (hm : m.Ok first) (h : Goes m.seeks r ts) :
    Auto (if first then .STARTTAG else .XMLTAG) (m.spell ++ r) (m.types ++ ts) := by
  have hbang : ∀ {as : List Byte}, Auto .ENTITYSL as (m.types ++ ts) → Auto (if first then .STARTTAG else .XMLTAG) (33 :: as) (m.types ++ ts) :=
    fun {as} h => Auto.next (q' := .ENTITYSL) (by cases first <;> rfl) (by cases first <;> decide +kernel) h
  cases m with
  | open_ name attrs tail im =>
    obtain ⟨h1, h2, h3, h4⟩ := hm
    have ho := open_auto (name := name) h1 h2 h3 h
    cases name with
    | cons b name =>
      refine Auto.fall (q' := .OPENTAG) (b := b) (by cases first <;> rfl) (by cases first <;> rfl) rfl ?_ ho
      exact word_none (h1 b (List.mem_cons_self ..)) (by cases first <;> decide)
    | nil =>
      obtain ⟨rfl, rfl, h5⟩ := h4 rfl
      cases im with
      | none => exact Auto.fall (q' := .OPENTAG) (b := 62) (by cases first <;> rfl) (by cases first <;> rfl) rfl (by cases first <;> decide +kernel) ho
      | some g =>
        cases first
        · exact absurd (h5 rfl) nofun
        · exact Auto.fall (q' := .OPENTAG) (b := 47) rfl rfl rfl (by decide +kernel) ho
  | close name tail =>
    obtain ⟨rfl, h1, h2⟩ := hm
    have := Auto.next (q := .XMLTAG) (q' := .CLOSETAG) (b := 47) rfl (by decide +kernel) (close_auto h1 h2 h)
    simpa [Loose.Mark.spell, Loose.Mark.types] using this
  | pi t =>
    obtain ⟨rfl, h1⟩ := hm
    have := Auto.next (q := .XMLTAG) (q' := .PITAG) (b := 63) rfl (by decide +kernel) (pi_auto h h1)
    simpa [Loose.Mark.spell, Loose.Mark.types] using this
  | decl ps tail =>
    obtain ⟨h1, h2⟩ := hm
    refine hbang ?_
    have := parts_auto h h1
    cases hs : spellParts ps tail with
    | nil => exact absurd hs (spellParts_ne ps tail)
    | cons c as =>
      rw [hs] at this h2
      have hc : c ≠ 91 ∧ c ≠ 45 := by simpa using h2
      have h3 : (stm .ENTITYSL).next (controlCharMap c) = none := by
        have ht := tells c
        cases hk : controlCharMap c <;> first | rfl | (rw [hk] at ht; exact absurd ht hc.1) | (rw [hk] at ht; exact absurd ht hc.2)
      have h4 := Auto.fall (q := .ENTITYSL) (b := c) rfl rfl rfl h3 this
      simpa [Loose.Mark.types] using h4
  | comment t =>
    have := comment_auto (n := 0) h hm.1 hm.2
    have h1 := hbang (Auto.next (q := .ENTITYSL) (q' := .COMDASH2) (b := 45) rfl (by decide +kernel)
      (Auto.next (q' := .COMSEEKE) (b := 45) rfl (by decide +kernel) this))
    simpa [Loose.Mark.spell, codes] using h1
  | cdata t =>
    have := cdata_auto (n := 0) h hm.1 hm.2
    have h1 := hbang (Auto.next (q := .ENTITYSL) (q' := .CDATA) (b := 91) rfl (by decide +kernel)
      (.key (q := .CDATA) (q' := .CDATA1) rfl rfl rfl (.inl ⟨91, rfl, by decide +kernel⟩) this))
    simpa [Loose.Mark.spell, codes, keyTypes] using h1

/-! ## The document -/

theorem Goes.of {seek : Bool} {t : List Byte} (ht : Chars .content t) (h : Behind r ts) : Goes seek (t ++ r) (textTypes seek t ++ ts) := by
  cases seek
  · exact h.body ht
  · exact h.seek (.inl rfl) ht

theorem piece_auto {first : Bool} {p : Loose.Piece} (hp : p.Ok first) (h : Behind r ts) :
    Auto (if first then .STARTTAG else .XMLTAG) (p.lead ++ (p.mark.spell ++ (p.text ++ r))) (p.types ++ ts) := by
  have := mark_auto hp.2.1 (Goes.of hp.2.2 h)
  have := Auto.gaps (by cases first <;> rfl) (by cases first <;> decide) hp.1 this
  simpa [Loose.Piece.types] using this

theorem pieces_auto : ∀ {ps : List Loose.Piece}, (∀ p ∈ ps, p.Ok false) → Behind (ps.flatMap Loose.Piece.spell ++ [0]) (ps.flatMap Loose.Piece.types ++ [.Exit])
  | [], _ => .inl ⟨rfl, rfl⟩
  | p :: ps, h => by
    have ih := pieces_auto fun p hp => h p (List.mem_cons_of_mem _ hp)
    refine .inr ⟨p.lead ++ (p.mark.spell ++ (p.text ++ (ps.flatMap Loose.Piece.spell ++ [0]))), ?_, ?_⟩
    · simp [Loose.Piece.spell]
    · have := piece_auto (h p (List.mem_cons_self ..)) ih
      simpa using this

/-- A document of the grammar leads to the exit. -/
theorem auto_of_document {d : Loose.Document} (hd : d.Ok) : Auto .START (d.spell ++ [0]) d.types := by
  obtain ⟨lead, content⟩ := d
  obtain ⟨h1, h2⟩ := hd
  have hg : ∀ {as : List Byte} {ts : Types}, Auto .START as ts → Auto .START (lead ++ as) ts := fun h => Auto.gaps rfl (by decide) h1 h
  cases content with
  | none =>
    have := hg (Auto.next (q := .START) (q' := .EXIT) (b := 0) rfl (by decide +kernel) .exit)
    simpa [Loose.Document.spell, Loose.Document.types] using this
  | some c =>
    obtain ⟨bg, ps⟩ := c
    obtain ⟨h3, h4⟩ := h2 _ rfl
    have hp := pieces_auto h4
    cases bg with
    | mark p =>
      have := hg (Auto.next (q := .START) (q' := .STARTTAG) (b := 60) rfl (by decide +kernel) (piece_auto h3 hp))
      simpa [Loose.Document.spell, Loose.Document.types, Beginning.spell, Beginning.types, Loose.Piece.spell] using this
    | header lead' attrs tail gap text =>
      obtain ⟨k1, k2, k3, k4⟩ := h3
      have e1 := hp.seek (q := .DOCSTART) (.inr rfl) k4
      have e2 := Auto.gaps (q := .XTAGEND) rfl (by decide) k3 (Auto.next (q' := .XTAGDONE) (b := 62) rfl (by decide +kernel)
        (.ret0 (q := .XTAGDONE) (q' := .DOCSTART) rfl rfl rfl rfl rfl e1))
      have e3 := attrs_auto (h := true) k2 ⟨_, rfl, e2⟩
      obtain ⟨q', as', hm, h5⟩ := e3.move (q := .XTAG) (by decide)
      have e4 := Auto.key (q := .XTAG) rfl rfl rfl hm h5
      have e5 := hg (Auto.next (q := .START) (q' := .STARTTAG) (b := 60) rfl (by decide +kernel) (Auto.gaps (q := .STARTTAG) rfl (by decide) k1
        (Auto.next (q' := .XTAG) (b := 63) rfl (by decide +kernel) e4)))
      simpa [Loose.Document.spell, Loose.Document.types, Beginning.spell, Beginning.types, codes, keyTypes] using e5

end TW.Accept
