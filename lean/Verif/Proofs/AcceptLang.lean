import Verif.Proofs.Accept
import Verif.Proofs.Grammar
import Verif.Spec.Loose

/-!
# The language of the automaton behind the scanner

For each state the texts that lead from it to the exit, in the terms of the grammar of `Spec/Loose`.
-/

namespace TW.Accept

open Spec Mach
open Spec.Loose hiding Attr Mark Document Val Piece

abbrev Types := List ElementType

/-- A text and what comes behind it. -/
def Body (seek : Bool) (as : List Byte) (ts : Types) : Prop :=
  ∃ (t : List Byte) (ps : List Loose.Piece), Chars .content t ∧ (∀ p ∈ ps, p.Ok false) ∧ as = t ++ (ps.flatMap Loose.Piece.spell ++ [0]) ∧
    ts = textTypes seek t ++ (ps.flatMap Loose.Piece.types ++ [.Exit])

/-- A text that is an item. -/
def Text (as : List Byte) (ts : Types) : Prop :=
  ∃ (t : List Byte) (ps : List Loose.Piece), Chars .content t ∧ (∀ p ∈ ps, p.Ok false) ∧ as = t ++ (ps.flatMap Loose.Piece.spell ++ [0]) ∧
    ts = .Content :: (ps.flatMap Loose.Piece.types ++ [.Exit])

/-- Behind the slash of an immediate end. -/
def Clim (as : List Byte) (ts : Types) : Prop :=
  ∃ g r ts', Gaps g ∧ as = g ++ 62 :: r ∧ Body false r ts' ∧ ts = List.replicate (g.length + 1) .CloseTagIm ++ ts'

/-- Behind the question mark at the end of a header. -/
def HEnd (as : List Byte) (ts : Types) : Prop :=
  ∃ g r ts', Gaps g ∧ as = g ++ 62 :: r ∧ Body true r ts' ∧ ts = .HeaderEnd :: ts'

/-- The end of a tag or header. -/
def End : Bool → List Byte → Types → Prop
  | true, as, ts => ∃ r, as = 63 :: r ∧ HEnd r ts
  | false, as, ts => (∃ r, as = 62 :: r ∧ Body false r ts) ∨ ∃ r, as = 47 :: r ∧ Clim r ts

/-- Attributes and the end. -/
def Rest (h : Bool) (as : List Byte) (ts : Types) : Prop :=
  ∃ (attrs : List Loose.Attr) (tail r : List Byte) (ts' : Types), AttrsOk attrs tail ∧ as = attrs.flatMap Loose.Attr.spell ++ (tail ++ r) ∧ End h r ts' ∧ ts = attrTypes h attrs ++ ts'

/-- Behind white space in a tag. -/
def AfterGap (h : Bool) (as : List Byte) (ts : Types) : Prop := ∀ c, Gap c → Rest h (c :: as) ts

/-- A value and what is behind it. -/
def Value (h : Bool) (q : Quote) (as : List Byte) (ts : Types) : Prop :=
  ∃ t r ts', Chars q.kind t ∧ as = t ++ (q.mark ++ r) ∧ Rest h r ts' ∧ ts = valT h :: ts'

/-- White space before a value. -/
def Vs (h : Bool) (as : List Byte) (ts : Types) : Prop :=
  ∃ (g : List Byte) (v : Loose.Val) (r : List Byte) (ts' : Types), Gaps g ∧ v.Ok ∧ as = g ++ (v.spell ++ r) ∧ Rest h r ts' ∧ (v.blank = true → ∀ c ∈ r.head?, ¬ Gap c) ∧ ts = valT h :: ts'

/-- White space before an equals sign. -/
def Equals (h : Bool) (as : List Byte) (ts : Types) : Prop := ∃ g r, Gaps g ∧ as = g ++ 61 :: r ∧ Vs h r ts

/-- The name of an attribute. -/
def Name (h : Bool) (as : List Byte) (ts : Types) : Prop :=
  ∃ t r ts', Chars .word t ∧ as = t ++ r ∧ Equals h r ts' ∧ ts = nameT h :: ts'

/-- Behind a `<`. -/
def InTag (first : Bool) (as : List Byte) (ts : Types) : Prop :=
  ∃ (g : List Byte) (m : Loose.Mark) (r : List Byte) (ts' : Types), Gaps g ∧ m.Ok first ∧ as = g ++ (m.spell ++ r) ∧ Body m.seeks r ts' ∧ ts = m.types ++ ts'

/-- The key word of a header. -/
def Key (as : List Byte) (ts : Types) : Prop := ∃ r ts', as = codes "xml" ++ r ∧ Rest true r ts' ∧ ts = .HeaderStart :: ts'

/-- Behind the `<` of a header. -/
def InHeader (as : List Byte) (ts : Types) : Prop := ∃ g r, Gaps g ∧ as = g ++ 63 :: r ∧ Key r ts

/-- The whole document. -/
def Doc (as : List Byte) (ts : Types) : Prop := ∃ d : Loose.Document, d.Ok ∧ as = d.spell ++ [0] ∧ ts = d.types

def Opened (as : List Byte) (ts : Types) : Prop := ∃ t r ts', Chars .word t ∧ as = t ++ r ∧ Rest false r ts' ∧ ts = .OpenTag :: ts'

def ClosedGap (as : List Byte) (ts : Types) : Prop := ∃ g r, Gaps g ∧ as = g ++ 62 :: r ∧ Body false r ts

def Closes (as : List Byte) (ts : Types) : Prop := ∃ t r ts', Chars .word t ∧ as = t ++ r ∧ ClosedGap r ts' ∧ ts = .CloseTag :: ts'

def PiEnd (as : List Byte) (ts : Types) : Prop := ∃ r, as = 62 :: r ∧ Body false r ts

def Pi (as : List Byte) (ts : Types) : Prop := ∃ t r, 63 ∉ t ∧ as = t ++ 63 :: r ∧ PiEnd r ts

def DeclEnd (as : List Byte) (ts : Types) : Prop := ∃ ts', Body true as ts' ∧ ts = .DocAttribEnd :: ts'

/-- The parts of a declaration. -/
def Decl (as : List Byte) (ts : Types) : Prop :=
  ∃ (ps : List (List Byte × Part)) (tail r : List Byte) (ts' : Types), PartsOk ps tail ∧ as = spellParts ps tail ++ r ∧ Body true r ts' ∧
    ts = ps.flatMap (fun p => p.2.types) ++ .DocAttribEnd :: ts'

def DeclWord (as : List Byte) (ts : Types) : Prop :=
  ∃ t r ts', Chars .word t ∧ as = t ++ r ∧ Decl r ts' ∧ (∀ c ∈ r.head?, Gap c ∨ c = 62) ∧ ts = .DocAttribValue :: ts'

def DeclString (kind : Kind) (c : Byte) (as : List Byte) (ts : Types) : Prop :=
  ∃ t r ts', Chars kind t ∧ as = t ++ c :: r ∧ Decl r ts' ∧ ts = .DocAttribValue :: ts'

def Subset (as : List Byte) (ts : Types) : Prop := ∃ t r, 93 ∉ t ∧ as = t ++ 93 :: r ∧ Decl r ts

/-- Behind `<!`. -/
def Bang (as : List Byte) (ts : Types) : Prop :=
  ∃ (m : Loose.Mark) (r : List Byte) (ts' : Types), (∀ b, m.Ok b) ∧ 33 :: as = m.spell ++ r ∧ Body m.seeks r ts' ∧ ts = m.types ++ ts'

/-- Counts the characters `a` at the end. -/
def count (a : Byte) (n : Nat) (t : List Byte) : Nat := t.foldl (fun n x => if x = a then n + 1 else 0) n

/-- Inside of a comment or CDATA section, behind `n` of the characters `a`. -/
def Run (a : Byte) (P : Nat → Prop) (seek : Bool) (n : Nat) (as : List Byte) (ts : Types) : Prop :=
  ∃ t r, as = t ++ 62 :: r ∧ P (count a n t) ∧ (∀ p s, t = p ++ 62 :: s → ¬ P (count a n p)) ∧ Body seek r ts

/-- The texts that lead from a state to the exit. -/
def Lang : STMState → List Byte → Types → Prop
  | .START => Doc
  | .STARTTAG => fun as ts => InTag true as ts ∨ InHeader as ts
  | .XTAG => Key
  | .PITAG => Pi
  | .PITAGEND => PiEnd
  | .XTAGEND => HEnd
  | .XTAGDONE => fun as ts => ∃ ts', Body true as ts' ∧ ts = .HeaderEnd :: ts'
  | .XTAGAISK => AfterGap true
  | .XTAGANAM => Name true
  | .XTAGAESK => Equals true
  | .XTAGAVSK => Vs true
  | .XTAGAVID => Value true .bare
  | .XTAGAVSQ => Value true .sq
  | .XTAGAVDQ => Value true .dq
  | .XTAGAVQE => Rest true
  | .DOCSTART => Body true
  | .CONTENT => Body false
  | .TOKEN => Text
  | .SEEKTOK => Body true
  | .XMLTAG => InTag false
  | .OPENTAG => Opened
  | .CLOSETAG => Closes
  | .TAGCLSK => ClosedGap
  | .TAGAISK => AfterGap false
  | .TAGANAM => Name false
  | .TAGAESK => Equals false
  | .TAGAVSK => Vs false
  | .TAGAVID => Value false .bare
  | .TAGAVSQ => Value false .sq
  | .TAGAVDQ => Value false .dq
  | .TAGAVQE => Rest false
  | .TAGCLIM => Clim
  | .ENTITYSL => Bang
  | .ENTITY => Decl
  | .ENTITYE => DeclEnd
  | .ENTITYID => DeclWord
  | .ENTITYSQ => DeclString .sq 39
  | .ENTITYDQ => DeclString .dq 34
  | .ENTITYLC => Subset
  | .COMDASH2 => fun as ts => ∃ r, as = 45 :: r ∧ Run 45 dashes true 0 r ts
  | .COMSEEKE => Run 45 dashes true 0
  | .COMENDD2 => fun as ts => ∀ n, n % 2 = 1 → Run 45 dashes true n as ts
  | .COMENDCL => fun as ts => ∀ n, n ≠ 0 → n % 2 = 0 → Run 45 dashes true n as ts
  | .CDATA => fun as ts => ∃ r, as = codes "CDATA[" ++ r ∧ Run 93 brackets false 0 r ts
  | .CDATA1 => fun as ts => ∀ n, n % 3 = 0 → Run 93 brackets false n as ts
  | .CDATA2 => fun as ts => ∀ n, n % 3 = 1 → Run 93 brackets false n as ts
  | .CDATA3 => fun as ts => ∀ n, n % 3 = 2 → Run 93 brackets false n as ts
  | .EXIT => fun as ts => as = [] ∧ ts = [.Exit]

/-- What the class of a character tells about it. -/
def Tells (b : Byte) : Cc → Prop
  | .EndOfText => b = 0
  | .EndOfLine | .Cntrl | .Space => Gap b
  | .Amp => b = 38
  | .Lt => b = 60
  | .Equal => b = 61
  | .Gt => b = 62
  | .Slash => b = 47
  | .Dash => b = 45
  | .Exclam => b = 33
  | .Questm => b = 63
  | .Sq => b = 39
  | .Dq => b = 34
  | .Osb => b = 91
  | .Csb => b = 93
  | .Undef | .Any => Kind.word.ends b = false ∧ b ≠ 38 ∧ b ≠ 45

instance (b : Byte) (c : Cc) : Decidable (Tells b c) := by cases c <;> (unfold Tells; infer_instance)

theorem ccm_large {b : Byte} (h : 256 ≤ b) : controlCharMap b = .Undef := by
  simp only [controlCharMap, CharMap.one, CharMap.range, CharMap.init]
  repeat' rw [if_neg (by omega)]

theorem ends_large {b : Byte} (h : 256 ≤ b) (kind : Kind) : kind.ends b = false := by
  cases kind <;> simp [Kind.ends] <;> omega

theorem tells (b : Byte) : Tells b (controlCharMap b) := by
  by_cases h : b < 256
  · have : ∀ b : _root_.Fin 256, Tells b.1 (controlCharMap b.1) := by decide +kernel
    exact this ⟨b, h⟩
  · rw [ccm_large (by omega)]
    exact ⟨ends_large (by omega) _, by omega, by omega⟩

theorem gap_iff {b : Byte} : Gap b ↔ controlCharMap b ∈ [Cc.EndOfLine, .Cntrl, .Space] := by
  by_cases h : b < 256
  · have : ∀ b : _root_.Fin 256, Gap b.1 ↔ controlCharMap b.1 ∈ [Cc.EndOfLine, .Cntrl, .Space] := by decide +kernel
    exact this ⟨b, h⟩
  · rw [ccm_large (by omega)]
    constructor
    · intro h'; have := h'.2.1; omega
    · intro h'; simp at h'

/-- The characters of tokens. -/
theorem inToken_iff {op : STMAction} {isTok : Cc → Bool} {k : Kind} (h1 : tokenDefs op = some isTok) (h2 : kindOf op = some k) (a : Byte) :
    inToken isTok a ↔ k.ends a = false := by
  have hamp : controlCharMap a = .Amp ↔ a = 38 := by
    constructor
    · intro h; have := tells a; rw [h] at this; exact this
    · rintro rfl; decide +kernel
  unfold inToken
  rw [hamp]
  by_cases h : a < 256
  · rw [kind_ends op isTok k h1 h2 a h]
    by_cases h38 : a = 38
    · subst h38; simp [ends_amp]
    · simp [h38]
  · rw [ends_large (by omega), ccm_large (by omega)]
    simp only [iff_true]
    left
    cases op <;> simp only [tokenDefs, Option.some.injEq, reduceCtorEq] at h1 <;> subst h1 <;> decide

/-! ## White space and texts -/

theorem Gaps.cons {c : Byte} {g : List Byte} (hc : Gap c) (hg : Gaps g) : Gaps (c :: g) := by
  intro x hx
  rcases List.mem_cons.1 hx with rfl | hx
  · exact hc
  · exact hg x hx

theorem Gaps.nil : Gaps [] := nofun

theorem gap_content {b : Byte} (h : Gap b) : Kind.content.ends b = false := by
  obtain ⟨h1, h2, h3⟩ := h
  simp only [Kind.ends, Bool.or_eq_false_iff, decide_eq_false_iff_not]
  omega

theorem Body.stop (seek : Bool) : Body seek [0] [.Exit] := by
  refine ⟨[], [], nofun, nofun, rfl, ?_⟩
  cases seek <;> rfl

theorem Body.tag {seek : Bool} {as : List Byte} {ts : Types} (h : InTag false as ts) : Body seek (60 :: as) ts := by
  obtain ⟨g, m, r, ts', h1, h2, rfl, ⟨t, ps, k1, k2, rfl, rfl⟩, rfl⟩ := h
  refine ⟨[], ⟨g, m, t⟩ :: ps, nofun, ?_, ?_, ?_⟩
  · intro p hp
    rcases List.mem_cons.1 hp with rfl | hp
    · exact ⟨h1, h2, k1⟩
    · exact k2 p hp
  · simp [Loose.Piece.spell]
  · cases seek <;> simp [textTypes, Loose.Piece.types]

theorem Body.gap {as : List Byte} {ts : Types} {b : Byte} (hb : Gap b) (h : Body true as ts) : Body true (b :: as) ts := by
  obtain ⟨t, ps, k1, k2, rfl, rfl⟩ := h
  refine ⟨b :: t, ps, ?_, k2, rfl, ?_⟩
  · intro a ha
    rcases List.mem_cons.1 ha with rfl | ha
    · exact gap_content hb
    · exact k1 a ha
  · simp [textTypes, hb]

/-- What is behind a text begins with a tag or is the end. -/
theorem behind_text {ps : List Loose.Piece} {b : Byte} (h : (ps.flatMap Loose.Piece.spell ++ [0]).head? = some b) : b = 60 ∨ b = 0 := by
  cases ps with
  | nil => cases h; exact .inr rfl
  | cons p ps => cases h; exact .inl rfl

theorem Body.token {seek : Bool} {as : List Byte} {ts : Types} {b : Byte} (h : Text as ts) (hb : as.head? = some b) (h1 : b ≠ 60) (h0 : b ≠ 0)
    (hg : seek = true → ¬ Gap b) : Body seek as ts := by
  obtain ⟨t, ps, k1, k2, rfl, rfl⟩ := h
  cases t with
  | nil =>
    rcases behind_text hb with h | h
    · exact absurd h h1
    · exact absurd h h0
  | cons c t =>
    have hcb : c = b := Option.some.inj hb
    subst hcb
    refine ⟨c :: t, ps, k1, k2, rfl, ?_⟩
    cases seek
    · rfl
    · simp [textTypes, hg rfl]

theorem Text.of {t as : List Byte} {ts : Types} (ht : Chars .content t) (h : Body false as ts) (hb : ∀ b ∈ as.head?, b = 60 ∨ b = 0) :
    Text (t ++ as) (.Content :: ts) := by
  obtain ⟨t', ps, k1, k2, rfl, rfl⟩ := h
  cases t' with
  | nil => exact ⟨t, ps, ht, k2, rfl, rfl⟩
  | cons c t' =>
    exfalso
    have h1 := hb c rfl
    have h2 := k1 c (List.mem_cons_self ..)
    rcases h1 with rfl | rfl <;> cases h2

/-! ## Tags -/

theorem End.first {h : Bool} {as : List Byte} {ts : Types} (hh : End h as ts) : ∃ c r, as = c :: r ∧ ¬ Gap c := by
  cases h
  · rcases hh with ⟨r, rfl, -⟩ | ⟨r, rfl, -⟩
    · exact ⟨_, r, rfl, by decide⟩
    · exact ⟨_, r, rfl, by decide⟩
  · obtain ⟨r, rfl, -⟩ := hh
    exact ⟨_, r, rfl, by decide⟩

theorem Rest.end {h : Bool} {as : List Byte} {ts : Types} (hh : End h as ts) : Rest h as ts :=
  ⟨[], [], as, ts, Gaps.nil, rfl, hh, rfl⟩

theorem Rest.gap {h : Bool} {as : List Byte} {ts : Types} {b c : Byte} (hb : Gap b) (hc : Gap c) (hr : Rest h (b :: as) ts) :
    Rest h (c :: b :: as) ts := by
  obtain ⟨attrs, tail, r, ts', k1, k2, k3, rfl⟩ := hr
  cases attrs with
  | nil =>
    cases tail with
    | nil =>
      obtain ⟨x, y, rfl, hx⟩ := k3.first
      cases k2
      exact absurd hb hx
    | cons x tail =>
      cases k2
      exact ⟨[], c :: b :: tail, r, ts', Gaps.cons hc k1, rfl, k3, rfl⟩
  | cons a attrs =>
    obtain ⟨lead, name, before, behind, val⟩ := a
    cases lead with
    | nil => exact absurd rfl k1.1.2.1
    | cons x lead =>
      cases k2
      exact ⟨⟨c :: b :: lead, name, before, behind, val⟩ :: attrs, tail, r, ts',
        ⟨⟨Gaps.cons hc k1.1.1, nofun, k1.1.2.2⟩, k1.2⟩, by simp [Loose.Attr.spell, List.flatMap], k3, rfl⟩

theorem AfterGap.gap {h : Bool} {as : List Byte} {ts : Types} {b : Byte} (hb : Gap b) (hr : AfterGap h as ts) : AfterGap h (b :: as) ts :=
  fun _ hc => Rest.gap hb hc (hr b hb)

theorem AfterGap.end {h : Bool} {as : List Byte} {ts : Types} (hh : End h as ts) : AfterGap h as ts :=
  fun c hc => ⟨[], [c], as, ts, Gaps.cons hc Gaps.nil, rfl, hh, rfl⟩

theorem AfterGap.name {h : Bool} {as : List Byte} {ts : Types} (hn : Name h as ts) : AfterGap h as ts := by
  intro c hc
  obtain ⟨t, r, ts', h1, rfl, ⟨g, r', h2, rfl, ⟨g', v, r'', ts'', h3, h4, rfl, ⟨attrs, tail, r3, ts3, k1, rfl, k2, rfl⟩, h6, rfl⟩⟩, rfl⟩ := hn
  refine ⟨⟨[c], t, g, g', v⟩ :: attrs, tail, r3, ts3, ⟨⟨Gaps.cons hc Gaps.nil, nofun, h1, h2, h3, h4⟩, ?_, k1⟩, ?_, k2, ?_⟩
  · intro hv
    have h7 := h6 hv
    cases attrs with
    | nil =>
      refine ⟨rfl, ?_⟩
      cases tail with
      | nil => rfl
      | cons x tail => exact absurd (k1 x (List.mem_cons_self ..)) (h7 x rfl)
    | cons a attrs =>
      obtain ⟨lead, name, before, behind, val⟩ := a
      cases lead with
      | nil => exact absurd rfl k1.1.2.1
      | cons x lead => exact absurd (k1.1.1 x (List.mem_cons_self ..)) (h7 x rfl)
  · simp [Loose.Attr.spell]
  · cases h <;> rfl

theorem Vs.gap {h : Bool} {as : List Byte} {ts : Types} {b : Byte} (hb : Gap b) (hv : Vs h as ts) : Vs h (b :: as) ts := by
  obtain ⟨g, v, r, ts', h1, h2, rfl, h3⟩ := hv
  exact ⟨b :: g, v, r, ts', Gaps.cons hb h1, h2, rfl, h3⟩

theorem Vs.quoted {h : Bool} {q : Quote} {as : List Byte} {ts : Types} (hq : q ≠ .bare) (hv : Value h q as ts) : Vs h (q.mark ++ as) ts := by
  obtain ⟨t, r, ts', h1, rfl, h2, rfl⟩ := hv
  refine ⟨[], ⟨q, t⟩, r, ts', Gaps.nil, h1, by simp [Loose.Val.spell], h2, ?_, rfl⟩
  intro hb
  simp [Loose.Val.blank, hq] at hb

theorem Vs.bare {h : Bool} {as : List Byte} {ts : Types} {b : Byte} (hb : as.head? = some b) (hg : ¬ Gap b) (hv : Value h .bare as ts) :
    Vs h as ts := by
  obtain ⟨t, r, ts', h1, rfl, h2, rfl⟩ := hv
  refine ⟨[], ⟨.bare, t⟩, r, ts', Gaps.nil, h1, by simp [Loose.Val.spell, Quote.mark], h2, ?_, rfl⟩
  intro hv c hc
  have ht : t = [] := by simpa [Loose.Val.blank] using hv
  subst ht
  have : r.head? = some b := hb
  rw [this] at hc
  cases hc
  exact hg

theorem Equals.gap {h : Bool} {as : List Byte} {ts : Types} {b : Byte} (hb : Gap b) (hv : Equals h as ts) : Equals h (b :: as) ts := by
  obtain ⟨g, r, h1, rfl, h3⟩ := hv
  exact ⟨b :: g, r, Gaps.cons hb h1, rfl, h3⟩

theorem Equals.sign {h : Bool} {as : List Byte} {ts : Types} (hv : Vs h as ts) : Equals h (61 :: as) ts := ⟨[], as, Gaps.nil, rfl, hv⟩

theorem InTag.gap {first : Bool} {as : List Byte} {ts : Types} {b : Byte} (hb : Gap b) (hv : InTag first as ts) : InTag first (b :: as) ts := by
  obtain ⟨g, m, r, ts', h1, h2, rfl, h3⟩ := hv
  exact ⟨b :: g, m, r, ts', Gaps.cons hb h1, h2, rfl, h3⟩

theorem InHeader.gap {as : List Byte} {ts : Types} {b : Byte} (hb : Gap b) (hv : InHeader as ts) : InHeader (b :: as) ts := by
  obtain ⟨g, r, h1, rfl, h3⟩ := hv
  exact ⟨b :: g, r, Gaps.cons hb h1, rfl, h3⟩

theorem InTag.bang {first : Bool} {as : List Byte} {ts : Types} (h : Bang as ts) : InTag first (33 :: as) ts := by
  obtain ⟨m, r, ts', h1, h2, h3⟩ := h
  exact ⟨[], m, r, ts', Gaps.nil, h1 first, h2, h3⟩

theorem InTag.close {as : List Byte} {ts : Types} (h : Closes as ts) : InTag false (47 :: as) ts := by
  obtain ⟨t, r, ts', h1, rfl, ⟨g, r', h2, rfl, h3⟩, rfl⟩ := h
  exact ⟨[], .close t g, r', ts', Gaps.nil, ⟨rfl, h1, h2⟩, by simp [Loose.Mark.spell], h3, rfl⟩

theorem InTag.pi {as : List Byte} {ts : Types} (h : Pi as ts) : InTag false (63 :: as) ts := by
  obtain ⟨t, r, h1, rfl, ⟨r', rfl, h2⟩⟩ := h
  exact ⟨[], .pi t, r', ts, Gaps.nil, ⟨rfl, h1⟩, by simp [Loose.Mark.spell], h2, rfl⟩

theorem InTag.open_ {first : Bool} {as : List Byte} {ts : Types} {b : Byte} (hb : as.head? = some b) (hg : ¬ Gap b)
    (hs : first = false → b ≠ 47) (h : Opened as ts) : InTag first as ts := by
  obtain ⟨t, r, ts', h1, rfl, ⟨attrs, tail, r', ts2, k1, rfl, k2, rfl⟩, rfl⟩ := h
  have hn : t = [] → attrs = [] ∧ tail = [] ∧ ∃ c r'', r' = c :: r'' ∧ c = b := by
    rintro rfl
    cases attrs with
    | nil =>
      cases tail with
      | nil =>
        obtain ⟨c, r'', rfl, -⟩ := k2.first
        cases hb
        exact ⟨rfl, rfl, _, _, rfl, rfl⟩
      | cons x tail => exact absurd (Option.some.inj hb ▸ k1 x (List.mem_cons_self ..)) hg
    | cons a attrs =>
      obtain ⟨lead, name, before, behind, val⟩ := a
      cases lead with
      | nil => exact absurd rfl k1.1.2.1
      | cons x lead => exact absurd (Option.some.inj hb ▸ k1.1.1 x (List.mem_cons_self ..)) hg
  rcases k2 with ⟨r2, rfl, k3⟩ | ⟨r2, rfl, g, r3, ts3, k3, rfl, k4, rfl⟩
  · refine ⟨[], .open_ t attrs tail none, r2, ts2, Gaps.nil, ⟨h1, k1, nofun, fun h => ?_⟩, by simp [Loose.Mark.spell], k3,
      by simp [Loose.Mark.types]⟩
    obtain ⟨n1, n2, -⟩ := hn h
    exact ⟨n1, n2, fun _ => rfl⟩
  · refine ⟨[], .open_ t attrs tail (some g), r3, ts3, Gaps.nil, ⟨h1, k1, ?_, fun h => ?_⟩, by simp [Loose.Mark.spell], k4,
      by simp [Loose.Mark.types]⟩
    · intro g' hg'; cases hg'; exact k3
    · obtain ⟨n1, n2, c, r'', n3, n4⟩ := hn h
      refine ⟨n1, n2, fun hf => ?_⟩
      cases n3
      exact absurd n4.symm (hs hf)

theorem Clim.gap {as : List Byte} {ts : Types} {b : Byte} (hb : Gap b) (h : Clim as ts) : Clim (b :: as) (.CloseTagIm :: ts) := by
  obtain ⟨g, r, ts', h1, rfl, h2, rfl⟩ := h
  exact ⟨b :: g, r, ts', Gaps.cons hb h1, rfl, h2, rfl⟩

theorem Clim.stop {as : List Byte} {ts : Types} (h : Body false as ts) : Clim (62 :: as) (.CloseTagIm :: ts) :=
  ⟨[], as, ts, Gaps.nil, rfl, h, rfl⟩

theorem HEnd.gap {as : List Byte} {ts : Types} {b : Byte} (hb : Gap b) (h : HEnd as ts) : HEnd (b :: as) ts := by
  obtain ⟨g, r, ts', h1, rfl, h2, rfl⟩ := h
  exact ⟨b :: g, r, ts', Gaps.cons hb h1, rfl, h2, rfl⟩

theorem HEnd.stop {as : List Byte} {ts : Types} (h : ∃ ts', Body true as ts' ∧ ts = .HeaderEnd :: ts') : HEnd (62 :: as) ts := by
  obtain ⟨ts', h, rfl⟩ := h
  exact ⟨[], as, ts', Gaps.nil, rfl, h, rfl⟩

theorem ClosedGap.gap {as : List Byte} {ts : Types} {b : Byte} (hb : Gap b) (h : ClosedGap as ts) : ClosedGap (b :: as) ts := by
  obtain ⟨g, r, h1, rfl, h2⟩ := h
  exact ⟨b :: g, r, Gaps.cons hb h1, rfl, h2⟩

theorem ClosedGap.stop {as : List Byte} {ts : Types} (h : Body false as ts) : ClosedGap (62 :: as) ts := ⟨[], as, Gaps.nil, rfl, h⟩

/-! ## Declarations, comments and CDATA sections -/

theorem Decl.gap {as : List Byte} {ts : Types} {b : Byte} (hb : Gap b) (h : Decl as ts) : Decl (b :: as) ts := by
  obtain ⟨ps, tail, r, ts', h1, rfl, h2, rfl⟩ := h
  cases ps with
  | nil => exact ⟨[], b :: tail, r, ts', Gaps.cons hb h1, rfl, h2, rfl⟩
  | cons p ps => exact ⟨(b :: p.1, p.2) :: ps, tail, r, ts', ⟨Gaps.cons hb h1.1, h1.2⟩, rfl, h2, rfl⟩

theorem Decl.stop {as : List Byte} {ts : Types} (h : DeclEnd as ts) : Decl (62 :: as) ts := by
  obtain ⟨ts', h, rfl⟩ := h
  exact ⟨[], [], as, ts', Gaps.nil, rfl, h, rfl⟩

theorem spellParts_ne (ps : List (List Byte × Part)) (tail : List Byte) : spellParts ps tail ≠ [] := by
  induction ps with
  | nil => unfold spellParts; simp
  | cons p ps ih => unfold spellParts; simp [ih]

theorem head_append {as bs : List Byte} (h : as ≠ []) : (as ++ bs).head? = as.head? := by
  cases as with
  | nil => exact absurd rfl h
  | cons => rfl

/-- A part before others. -/
theorem Decl.part {p : Part} {as : List Byte} {ts : Types} (hp : p.Ok) (hw : p.isWord = true → ∀ c ∈ as.head?, Gap c ∨ c = 62)
    (h : Decl as ts) : Decl (p.spell ++ as) (p.types ++ ts) := by
  obtain ⟨ps, tail, r, ts', h1, rfl, h2, rfl⟩ := h
  refine ⟨([], p) :: ps, tail, r, ts', ⟨Gaps.nil, hp, fun h => ?_, h1⟩, by simp [spellParts], h2, by simp⟩
  have h3 := hw h
  rw [head_append (spellParts_ne _ _)] at h3
  cases hc : (spellParts ps tail).head? with
  | none => exact absurd (List.head?_eq_none_iff.1 hc) (spellParts_ne _ _)
  | some c =>
    rw [hc] at h3
    simpa using h3 c rfl

theorem Decl.word {as : List Byte} {ts : Types} {b : Byte} (hb : as.head? = some b) (hg : ¬ Gap b) (h2 : b ≠ 62) (h : DeclWord as ts) :
    Decl as ts := by
  obtain ⟨t, r, ts', h1, rfl, h3, h4, rfl⟩ := h
  refine Decl.part (p := .word t) ⟨h1, ?_⟩ (fun _ => h4) h3
  rintro rfl
  rcases h4 b hb with h | h
  · exact hg h
  · exact h2 h

theorem Decl.sq {as : List Byte} {ts : Types} (h : DeclString .sq 39 as ts) : Decl (39 :: as) ts := by
  obtain ⟨t, r, ts', h1, rfl, h3, rfl⟩ := h
  have := Decl.part (p := .sq t) h1 nofun h3
  simpa [Part.spell, Part.types] using this

theorem Decl.dq {as : List Byte} {ts : Types} (h : DeclString .dq 34 as ts) : Decl (34 :: as) ts := by
  obtain ⟨t, r, ts', h1, rfl, h3, rfl⟩ := h
  have := Decl.part (p := .dq t) h1 nofun h3
  simpa [Part.spell, Part.types] using this

theorem Decl.subset {as : List Byte} {ts : Types} (h : Subset as ts) : Decl (91 :: as) ts := by
  obtain ⟨t, r, h1, rfl, h3⟩ := h
  have := Decl.part (p := .subset t) h1 nofun h3
  simpa [Part.spell, Part.types] using this

theorem Subset.char {as : List Byte} {ts : Types} {b : Byte} (hb : b ≠ 93) (h : Subset as ts) : Subset (b :: as) ts := by
  obtain ⟨t, r, h1, rfl, h3⟩ := h
  refine ⟨b :: t, r, ?_, rfl, h3⟩
  intro h
  rcases List.mem_cons.1 h with h | h
  · exact hb h.symm
  · exact h1 h

theorem Pi.char {as : List Byte} {ts : Types} {b : Byte} (hb : b ≠ 63) (h : Pi as ts) : Pi (b :: as) ts := by
  obtain ⟨t, r, h1, rfl, h3⟩ := h
  refine ⟨b :: t, r, ?_, rfl, h3⟩
  intro h
  rcases List.mem_cons.1 h with h | h
  · exact hb h.symm
  · exact h1 h

theorem Run.stop {a : Byte} {P : Nat → Prop} {seek : Bool} {n : Nat} {as : List Byte} {ts : Types} (hn : P n) (h : Body seek as ts) :
    Run a P seek n (62 :: as) ts := by
  refine ⟨[], as, rfl, hn, ?_, h⟩
  intro p s hp
  cases p <;> cases hp

theorem Run.char {a : Byte} {P : Nat → Prop} {seek : Bool} {n : Nat} {b : Byte} {as : List Byte} {ts : Types} (hb : b = 62 → ¬ P n)
    (h : Run a P seek (if b = a then n + 1 else 0) as ts) : Run a P seek n (b :: as) ts := by
  obtain ⟨t, r, rfl, h1, h2, h3⟩ := h
  refine ⟨b :: t, r, rfl, h1, ?_, h3⟩
  intro p s hp
  cases p with
  | nil => cases hp; exact hb rfl
  | cons x p => cases hp; exact h2 p s rfl

theorem Bang.decl {as : List Byte} {ts : Types} {b : Byte} (hb : as.head? = some b) (h1 : b ≠ 91) (h2 : b ≠ 45) (h : Decl as ts) : Bang as ts := by
  obtain ⟨ps, tail, r, ts', h3, rfl, h4, rfl⟩ := h
  refine ⟨.decl ps tail, r, ts', fun _ => ⟨h3, ?_⟩, rfl, h4, by simp [Loose.Mark.types]⟩
  rw [head_append (spellParts_ne _ _)] at hb
  rw [hb]
  simp [h1, h2]

theorem Bang.comment {as : List Byte} {ts : Types} (h : ∃ r, as = 45 :: r ∧ Run 45 dashes true 0 r ts) : Bang (45 :: as) ts := by
  obtain ⟨r, rfl, t, r', rfl, h1, h2, h3⟩ := h
  exact ⟨.comment t, r', ts, fun _ => ⟨h1, h2⟩, by simp [Loose.Mark.spell, codes], h3, rfl⟩

theorem Bang.cdata {as : List Byte} {ts : Types} (h : ∃ r, as = codes "CDATA[" ++ r ∧ Run 93 brackets false 0 r ts) : Bang (91 :: as) ts := by
  obtain ⟨r, rfl, t, r', rfl, h1, h2, h3⟩ := h
  exact ⟨.cdata t, r', ts, fun _ => ⟨h1, h2⟩, by simp [Loose.Mark.spell, codes], h3, rfl⟩

/-! ## The document -/

theorem Doc.stop : Doc [0] [.Exit] := ⟨⟨[], none⟩, ⟨Gaps.nil, nofun⟩, rfl, rfl⟩

theorem Doc.gap {as : List Byte} {ts : Types} {b : Byte} (hb : Gap b) (h : Doc as ts) : Doc (b :: as) ts := by
  obtain ⟨d, h1, rfl, rfl⟩ := h
  exact ⟨⟨b :: d.lead, d.content⟩, ⟨Gaps.cons hb h1.1, h1.2⟩, rfl, rfl⟩

theorem Doc.tag {as : List Byte} {ts : Types} (h : InTag true as ts) : Doc (60 :: as) ts := by
  obtain ⟨g, m, r, ts', h1, h2, rfl, ⟨t, ps, k1, k2, rfl, rfl⟩, rfl⟩ := h
  refine ⟨⟨[], some (.mark ⟨g, m, t⟩, ps)⟩, ⟨Gaps.nil, ?_⟩, ?_, ?_⟩
  · intro c hc
    cases hc
    exact ⟨⟨h1, h2, k1⟩, k2⟩
  · simp [Loose.Document.spell, Beginning.spell, Loose.Piece.spell]
  · simp [Loose.Document.types, Beginning.types, Loose.Piece.types]

theorem Doc.header {as : List Byte} {ts : Types} (h : InHeader as ts) : Doc (60 :: as) ts := by
  obtain ⟨g, r, h1, rfl, r', ts', rfl, ⟨attrs, tail, r2, ts2, k1, rfl, ⟨r3, rfl, g', r4, ts4, k2, rfl, ⟨t, ps, k3, k4, rfl, rfl⟩, rfl⟩, rfl⟩, rfl⟩ := h
  refine ⟨⟨[], some (.header g attrs tail g' t, ps)⟩, ⟨Gaps.nil, ?_⟩, ?_, ?_⟩
  · intro c hc
    cases hc
    exact ⟨⟨h1, k1, k2, k3⟩, k4⟩
  · simp [Loose.Document.spell, Beginning.spell, codes]
  · simp [Loose.Document.types, Beginning.types]

/-! ## The states -/

/-- The languages where something is returned without reading. -/
theorem lang_ret0 {q q' : STMState} {as : List Byte} {ts : Types} {op : STMAction} {arg : ElementType}
    (h1 : (stm q).action = some (op, arg)) (h4 : (stm q).nofnext = 0)
    (h5 : (stm q).fallback = some q') (h : Lang q' as ts) : Lang q as (arg :: ts) := by
  cases q <;> simp only [stm, reduceCtorEq, Option.some.injEq, Prod.mk.injEq] at h1 h4 h5
  all_goals
    obtain ⟨rfl, rfl⟩ := h1
    subst h5
    exact ⟨ts, h, rfl⟩

/-- The languages where something is returned before reading. -/
theorem lang_ret {q q' : STMState} {as as' : List Byte} {ts : Types} {op : STMAction} {arg : ElementType}
    (h1 : (stm q).action = some (op, arg)) (h2 : tokenDefs op = none) (h3 : stringDefs op = none) (h4 : (stm q).nofnext ≠ 0)
    (hm : Move q as q' as') (h : Lang q' as' ts) : Lang q as (arg :: ts) := by
  have hq : q = .TAGCLIM := by
    cases q <;> simp only [stm, reduceCtorEq, Option.some.injEq, Prod.mk.injEq, ne_eq, not_true_eq_false] at h1 h4 <;>
      first | rfl | (obtain ⟨rfl, -⟩ := h1; first | (cases h2; done) | cases h3)
  subst hq
  have harg : arg = .CloseTagIm := by simp only [stm, Option.some.injEq, Prod.mk.injEq] at h1; exact h1.2.symm
  subst harg
  rcases hm with ⟨b, rfl, hn⟩ | ⟨-, hf, -⟩
  · have hc := tells b
    cases hk : controlCharMap b <;> rw [hk] at hn hc <;> simp only [stm, reduceCtorEq, Option.some.injEq] at hn <;> subst hn
    all_goals first | exact Clim.gap hc h | (cases hc; exact Clim.stop h)
  · cases hf

/-- The key words. -/
theorem lang_key {q q' : STMState} {str as as' : List Byte} {ts : Types} {op : STMAction} {arg : ElementType}
    (h1 : (stm q).action = some (op, arg)) (h3 : stringDefs op = some str)
    (hm : Move q as q' as') (h : Lang q' as' ts) : Lang q (str ++ as) (keyTypes op ++ ts) := by
  have hq : q = .XTAG ∧ op = .ExpectIdentifierXML ∨ q = .CDATA ∧ op = .ExpectIdentifierCDATA := by
    cases q <;> simp only [stm, reduceCtorEq, Option.some.injEq, Prod.mk.injEq] at h1 <;>
      first | (obtain ⟨rfl, -⟩ := h1; cases h3; done) | (obtain ⟨rfl, -⟩ := h1; simp)
  rcases hq with ⟨rfl, rfl⟩ | ⟨rfl, rfl⟩ <;> cases h3
  · have hr : Rest true as ts := by
      rcases hm with ⟨b, rfl, hn⟩ | ⟨-, hf, -⟩
      · have hc := tells b
        cases hk : controlCharMap b <;> rw [hk] at hn hc <;> simp only [stm, reduceCtorEq, Option.some.injEq] at hn <;> subst hn
        all_goals first | exact h b hc | (cases hc; exact Rest.end ⟨as', rfl, h⟩)
      · cases hf
    exact ⟨as, ts, rfl, hr, rfl⟩
  · rcases hm with ⟨b, rfl, hn⟩ | ⟨-, hf, -⟩
    · have hc := tells b
      cases hk : controlCharMap b <;> rw [hk] at hn hc <;> simp only [stm, reduceCtorEq, Option.some.injEq] at hn
      subst hn
      cases hc
      exact ⟨as', rfl, h 0 rfl⟩
    · cases hf

/-- The rest of a tag from the character behind a name or value. -/
theorem Rest.move {q q' : STMState} {h : Bool} {as as' : List Byte} {ts : Types} (hq : q ∈ [STMState.OPENTAG, .TAGAVID, .TAGAVQE] ∧ h = false ∨ q ∈ [STMState.XTAGAVID, .XTAGAVQE] ∧ h = true)
    (hm : Move q as q' as') (hl : Lang q' as' ts) : Rest h as ts := by
  simp only [List.mem_cons, List.not_mem_nil, or_false] at hq
  rcases hm with ⟨b, rfl, hn⟩ | ⟨-, hf, -⟩
  · have hc := tells b
    rcases hq with ⟨rfl | rfl | rfl, rfl⟩ | ⟨rfl | rfl, rfl⟩ <;>
      (cases hk : controlCharMap b <;> rw [hk] at hn hc <;> simp only [stm, reduceCtorEq, Option.some.injEq] at hn <;> subst hn)
    all_goals first | exact hl b hc | (cases hc; exact Rest.end (.inl ⟨as', rfl, hl⟩)) |
      (cases hc; exact Rest.end (.inr ⟨as', rfl, hl⟩)) | (cases hc; exact Rest.end ⟨as', rfl, hl⟩)
  · rcases hq with ⟨rfl | rfl | rfl, rfl⟩ | ⟨rfl | rfl, rfl⟩ <;> cases hf

theorem Equals.move {q q' : STMState} {h : Bool} {as as' : List Byte} {ts : Types} (hq : q = .TAGANAM ∧ h = false ∨ q = .XTAGANAM ∧ h = true)
    (hm : Move q as q' as') (hl : Lang q' as' ts) : Equals h as ts := by
  rcases hm with ⟨b, rfl, hn⟩ | ⟨-, hf, -⟩
  · have hc := tells b
    rcases hq with ⟨rfl, rfl⟩ | ⟨rfl, rfl⟩ <;>
      (cases hk : controlCharMap b <;> rw [hk] at hn hc <;> simp only [stm, reduceCtorEq, Option.some.injEq] at hn <;> subst hn)
    all_goals first | exact Equals.gap hc hl | (cases hc; exact Equals.sign hl)
  · rcases hq with ⟨rfl, rfl⟩ | ⟨rfl, rfl⟩ <;> cases hf

theorem ClosedGap.move {q' : STMState} {as as' : List Byte} {ts : Types} (hm : Move .CLOSETAG as q' as') (hl : Lang q' as' ts) : ClosedGap as ts := by
  rcases hm with ⟨b, rfl, hn⟩ | ⟨-, hf, -⟩
  · have hc := tells b
    cases hk : controlCharMap b <;> rw [hk] at hn hc <;> simp only [stm, reduceCtorEq, Option.some.injEq] at hn <;> subst hn
    all_goals first | exact ClosedGap.gap hc hl | (cases hc; exact ClosedGap.stop hl)
  · cases hf

theorem Decl.move {q' : STMState} {as as' : List Byte} {ts : Types} (hm : Move .ENTITYID as q' as') (hl : Lang q' as' ts) :
    Decl as ts ∧ ∀ c ∈ as.head?, Gap c ∨ c = 62 := by
  rcases hm with ⟨b, rfl, hn⟩ | ⟨-, hf, -⟩
  · have hc := tells b
    cases hk : controlCharMap b <;> rw [hk] at hn hc <;> simp only [stm, reduceCtorEq, Option.some.injEq] at hn <;> subst hn
    all_goals first
      | exact ⟨Decl.gap hc hl, fun c h => by cases h; exact .inl hc⟩
      | (cases hc; exact ⟨Decl.stop hl, fun c h => by cases h; exact .inr rfl⟩)
  · cases hf

theorem move_quote {q q' : STMState} {as as' : List Byte} (hm : Move q as q' as') :
    (q = .XTAGAVSQ → q' = .XTAGAVQE ∧ as = 39 :: as') ∧ (q = .XTAGAVDQ → q' = .XTAGAVQE ∧ as = 34 :: as') ∧
    (q = .TAGAVSQ → q' = .TAGAVQE ∧ as = 39 :: as') ∧ (q = .TAGAVDQ → q' = .TAGAVQE ∧ as = 34 :: as') ∧
    (q = .ENTITYSQ → q' = .ENTITY ∧ as = 39 :: as') ∧ (q = .ENTITYDQ → q' = .ENTITY ∧ as = 34 :: as') := by
  refine ⟨?_, ?_, ?_, ?_, ?_, ?_⟩ <;>
  · rintro rfl
    rcases hm with ⟨b, rfl, hn⟩ | ⟨-, hf, -⟩
    · have hc := tells b
      cases hk : controlCharMap b <;> rw [hk] at hn hc <;> simp only [stm, reduceCtorEq, Option.some.injEq] at hn
      subst hn
      cases hc
      exact ⟨rfl, rfl⟩
    · cases hf

/-- Behind a text is a tag or the end. -/
theorem Text.move {q' : STMState} {as as' : List Byte} {ts : Types} (hb : ∀ b ∈ as.head?, Kind.content.ends b = true) (hm : Move .TOKEN as q' as')
    (hl : Lang q' as' ts) : Body false as ts ∧ ∀ b ∈ as.head?, b = 60 ∨ b = 0 := by
  have h2 : ∀ b ∈ as.head?, b = 60 ∨ b = 0 := by
    intro b h
    have := hb b h
    simp only [Kind.ends, Bool.or_eq_true, decide_eq_true_eq] at this
    omega
  refine ⟨?_, h2⟩
  rcases hm with ⟨b, rfl, hn⟩ | ⟨rfl, hf, -⟩
  · have hc := tells b
    cases hk : controlCharMap b <;> rw [hk] at hn hc <;> simp only [stm, reduceCtorEq, Option.some.injEq] at hn <;> subst hn
    all_goals first
      | (cases hc; obtain ⟨rfl, rfl⟩ := hl; exact Body.stop false)
      | (cases hc; exact Body.tag hl)
      | (exact absurd (hb b rfl) (by rw [gap_content hc]; decide))
  · cases hf
    exact hl

/-- The tokens. -/
theorem lang_tok {q q' : STMState} {t as as' : List Byte} {ts : Types} {op : STMAction} {arg : ElementType} {isTok : Cc → Bool}
    (h1 : (stm q).action = some (op, arg)) (h2 : tokenDefs op = some isTok) (h3 : ∀ a ∈ t, inToken isTok a)
    (h4 : ∀ b ∈ as.head?, ¬ inToken isTok b) (hm : Move q as q' as') (h : Lang q' as' ts) : Lang q (t ++ as) (arg :: ts) := by
  have hk : ∀ k, kindOf op = some k → Chars k t := fun k hk a ha => (inToken_iff h2 hk a).1 (h3 a ha)
  have hq := move_quote hm
  cases q <;> simp only [stm, reduceCtorEq, Option.some.injEq, Prod.mk.injEq] at h1
  all_goals first
    | (obtain ⟨rfl, rfl⟩ := h1; cases h2; done)
    | skip
  all_goals obtain ⟨rfl, rfl⟩ := h1
  case XTAGANAM => exact ⟨t, as, ts, hk _ rfl, rfl, Equals.move (.inr ⟨rfl, rfl⟩) hm h, rfl⟩
  case TAGANAM => exact ⟨t, as, ts, hk _ rfl, rfl, Equals.move (.inl ⟨rfl, rfl⟩) hm h, rfl⟩
  case XTAGAVID => exact ⟨t, as, ts, hk _ rfl, rfl, Rest.move (.inr ⟨by decide, rfl⟩) hm h, rfl⟩
  case TAGAVID => exact ⟨t, as, ts, hk _ rfl, rfl, Rest.move (.inl ⟨by decide, rfl⟩) hm h, rfl⟩
  case OPENTAG => exact ⟨t, as, ts, hk _ rfl, rfl, Rest.move (.inl ⟨by decide, rfl⟩) hm h, rfl⟩
  case CLOSETAG => exact ⟨t, as, ts, hk _ rfl, rfl, ClosedGap.move hm h, rfl⟩
  case ENTITYID => exact ⟨t, as, ts, hk _ rfl, rfl, (Decl.move hm h).1, (Decl.move hm h).2, rfl⟩
  case TOKEN =>
    have := Text.move (fun b hb => by
      have := mt (inToken_iff h2 rfl b).2 (h4 b hb)
      simpa using this) hm h
    exact Text.of (hk _ rfl) this.1 this.2
  case XTAGAVSQ => obtain ⟨rfl, rfl⟩ := hq.1 rfl; exact ⟨t, as', ts, hk _ rfl, rfl, h, rfl⟩
  case XTAGAVDQ => obtain ⟨rfl, rfl⟩ := hq.2.1 rfl; exact ⟨t, as', ts, hk _ rfl, rfl, h, rfl⟩
  case TAGAVSQ => obtain ⟨rfl, rfl⟩ := hq.2.2.1 rfl; exact ⟨t, as', ts, hk _ rfl, rfl, h, rfl⟩
  case TAGAVDQ => obtain ⟨rfl, rfl⟩ := hq.2.2.2.1 rfl; exact ⟨t, as', ts, hk _ rfl, rfl, h, rfl⟩
  case ENTITYSQ => obtain ⟨rfl, rfl⟩ := hq.2.2.2.2.1 rfl; exact ⟨t, as', ts, hk _ rfl, rfl, h, rfl⟩
  case ENTITYDQ => obtain ⟨rfl, rfl⟩ := hq.2.2.2.2.2 rfl; exact ⟨t, as', ts, hk _ rfl, rfl, h, rfl⟩

theorem class_of (b : Byte) {c : Cc} (hk : controlCharMap b = c) : (c ≠ .Dash → b ≠ 45) ∧ (c ≠ .Csb → b ≠ 93) ∧ (c ≠ .Gt → b ≠ 62) ∧
    (c ≠ .Questm → b ≠ 63) ∧ (c ≠ .Slash → b ≠ 47) ∧ (c ≠ .Lt → b ≠ 60) ∧ (c ≠ .EndOfText → b ≠ 0) ∧ (c ≠ .Osb → b ≠ 91) ∧
    (c ∉ [Cc.EndOfLine, .Cntrl, .Space] → ¬ Gap b) := by
  subst hk
  refine ⟨?_, ?_, ?_, ?_, ?_, ?_, ?_, ?_, mt gap_iff.1⟩ <;>
  · rintro h rfl
    exact h (by decide +kernel)

theorem not_dashes {n : Nat} (h : n % 2 = 1) : ¬ dashes n := by unfold dashes; omega

theorem not_brackets {n : Nat} (h : n % 3 ≠ 2) : ¬ brackets n := by unfold brackets; omega

/-- The transitions without an item. -/
theorem lang_next {q q' : STMState} {b : Byte} {as : List Byte} {ts : Types} (h1 : (stm q).action = none)
    (hn : (stm q).next (controlCharMap b) = some q') (h : Lang q' as ts) : Lang q (b :: as) ts := by
  have hc := tells b
  generalize hk : controlCharMap b = c at hn hc
  have hk := class_of b hk
  cases q <;> simp only [stm, reduceCtorEq] at h1
  case START =>
    cases c <;> simp only [stm, reduceCtorEq, Option.some.injEq] at hn <;> subst hn
    all_goals first
      | exact Doc.gap hc h
      | (cases hc; obtain ⟨rfl, rfl⟩ := h; exact Doc.stop)
      | (cases hc; exact h.elim Doc.tag Doc.header)
  case STARTTAG =>
    cases c <;> simp only [stm, reduceCtorEq, Option.some.injEq] at hn <;> subst hn
    all_goals first
      | exact h.imp (InTag.gap hc) (InHeader.gap hc)
      | (cases hc; exact .inr ⟨[], as, Gaps.nil, rfl, h⟩)
      | (cases hc; exact .inl (InTag.bang h))
  case XMLTAG =>
    cases c <;> simp only [stm, reduceCtorEq, Option.some.injEq] at hn <;> subst hn
    all_goals first
      | exact InTag.gap hc h
      | (cases hc; exact InTag.pi h)
      | (cases hc; exact InTag.bang h)
      | (cases hc; exact InTag.close h)
  case PITAG =>
    cases c <;> simp only [stm, Option.some.injEq] at hn <;> subst hn
    all_goals first
      | exact Pi.char (hk.2.2.2.1 nofun) h
      | (cases hc; exact ⟨[], as, nofun, rfl, h⟩)
  case PITAGEND =>
    cases c <;> simp only [stm, reduceCtorEq, Option.some.injEq] at hn <;> subst hn
    cases hc
    exact ⟨as, rfl, h⟩
  case XTAGEND =>
    cases c <;> simp only [stm, reduceCtorEq, Option.some.injEq] at hn <;> subst hn
    all_goals first
      | exact HEnd.gap hc h
      | (cases hc; exact HEnd.stop h)
  case XTAGAISK =>
    cases c <;> simp only [stm, reduceCtorEq, Option.some.injEq] at hn <;> subst hn
    all_goals first
      | exact AfterGap.gap hc h
      | (cases hc; exact AfterGap.end ⟨as, rfl, h⟩)
  case TAGAISK =>
    cases c <;> simp only [stm, reduceCtorEq, Option.some.injEq] at hn <;> subst hn
    all_goals first
      | exact AfterGap.gap hc h
      | (cases hc; exact AfterGap.end (.inl ⟨as, rfl, h⟩))
      | (cases hc; exact AfterGap.end (.inr ⟨as, rfl, h⟩))
  case XTAGAESK | TAGAESK =>
    cases c <;> simp only [stm, reduceCtorEq, Option.some.injEq] at hn <;> subst hn
    all_goals first
      | exact Equals.gap hc h
      | (cases hc; exact Equals.sign h)
  case XTAGAVSK | TAGAVSK =>
    cases c <;> simp only [stm, reduceCtorEq, Option.some.injEq] at hn <;> subst hn
    all_goals first
      | exact Vs.gap hc h
      | (cases hc; exact Vs.quoted (q := .sq) nofun h)
      | (cases hc; exact Vs.quoted (q := .dq) nofun h)
  case XTAGAVQE => exact Rest.move (q := .XTAGAVQE) (.inr ⟨by decide, rfl⟩) (.inl ⟨b, rfl, by rw [‹controlCharMap b = c›]; exact hn⟩) h
  case TAGAVQE => exact Rest.move (q := .TAGAVQE) (.inl ⟨by decide, rfl⟩) (.inl ⟨b, rfl, by rw [‹controlCharMap b = c›]; exact hn⟩) h
  case DOCSTART | SEEKTOK | CONTENT =>
    cases c <;> simp only [stm, reduceCtorEq, Option.some.injEq] at hn <;> subst hn
    all_goals first
      | exact Body.gap hc h
      | (cases hc; exact Body.tag h)
      | (cases hc; obtain ⟨rfl, rfl⟩ := h; exact Body.stop _)
  case TAGCLSK =>
    cases c <;> simp only [stm, reduceCtorEq, Option.some.injEq] at hn <;> subst hn
    all_goals first
      | exact ClosedGap.gap hc h
      | (cases hc; exact ClosedGap.stop h)
  case ENTITYSL =>
    cases c <;> simp only [stm, reduceCtorEq, Option.some.injEq] at hn <;> subst hn
    all_goals first
      | (cases hc; exact Bang.cdata h)
      | (cases hc; exact Bang.comment h)
  case ENTITY =>
    cases c <;> simp only [stm, reduceCtorEq, Option.some.injEq] at hn <;> subst hn
    all_goals first
      | exact Decl.gap hc h
      | (cases hc; exact Decl.stop h)
      | (cases hc; exact Decl.sq h)
      | (cases hc; exact Decl.dq h)
      | (cases hc; exact Decl.subset h)
  case ENTITYLC =>
    cases c <;> simp only [stm, Option.some.injEq] at hn <;> subst hn
    all_goals first
      | exact Subset.char (hk.2.1 nofun) h
      | (cases hc; exact ⟨[], as, nofun, rfl, h⟩)
  case COMDASH2 =>
    cases c <;> simp only [stm, reduceCtorEq, Option.some.injEq] at hn <;> subst hn
    cases hc
    exact ⟨as, rfl, h⟩
  case COMSEEKE =>
    cases c <;> simp only [stm, Option.some.injEq] at hn <;> subst hn
    all_goals refine Run.char (fun _ => by unfold dashes; omega) ?_
    all_goals first
      | (rw [if_neg (hk.1 nofun)]; exact h)
      | (cases hc; exact h 1 rfl)
  case COMENDD2 =>
    intro n hn2
    cases c <;> simp only [stm, Option.some.injEq] at hn <;> subst hn
    all_goals refine Run.char (fun _ => not_dashes hn2) ?_
    all_goals first
      | (rw [if_neg (hk.1 nofun)]; exact h)
      | (cases hc; exact h (n + 1) (by omega) (by omega))
  case COMENDCL =>
    intro n hn0 hn2
    cases c <;> simp only [stm, Option.some.injEq] at hn <;> subst hn
    all_goals first
      | (cases hc; exact Run.stop ⟨hn0, hn2⟩ h)
      | (refine Run.char (fun h => absurd h (hk.2.2.1 nofun)) ?_; rw [if_neg (hk.1 nofun)]; exact h)
      | (cases hc; exact Run.char nofun (h (n + 1) (by omega)))
  case CDATA1 =>
    intro n hn2
    cases c <;> simp only [stm, Option.some.injEq] at hn <;> subst hn
    all_goals refine Run.char (fun _ => not_brackets (by omega)) ?_
    all_goals first
      | (rw [if_neg (hk.2.1 (by decide))]; exact h 0 rfl)
      | (cases hc; exact h (n + 1) (by omega))
  case CDATA2 =>
    intro n hn2
    cases c <;> simp only [stm, Option.some.injEq] at hn <;> subst hn
    all_goals refine Run.char (fun _ => not_brackets (by omega)) ?_
    all_goals first
      | (rw [if_neg (hk.2.1 (by decide))]; exact h 0 rfl)
      | (cases hc; exact h (n + 1) (by omega))
  case CDATA3 =>
    intro n hn2
    cases c <;> simp only [stm, Option.some.injEq] at hn <;> subst hn
    all_goals first
      | (cases hc; exact Run.stop (P := brackets) hn2 h)
      | (refine Run.char (fun h => absurd h (hk.2.2.1 (by decide))) ?_; rw [if_neg (hk.2.1 (by decide))]; exact h 0 rfl)
      | (cases hc; exact Run.char (a := 93) (P := brackets) (b := 93) nofun (h (n + 1) (by omega)))

/-- The transitions without an item and without reading. -/
theorem lang_fall {q q' : STMState} {b : Byte} {as : List Byte} {ts : Types} (h1 : (stm q).action = none) (hf : (stm q).fallback = some q')
    (hb : as.head? = some b) (hn : (stm q).next (controlCharMap b) = none) (h : Lang q' as ts) : Lang q as ts := by
  generalize hk : controlCharMap b = c at hn
  have hk := class_of b hk
  cases q <;> simp only [stm, reduceCtorEq, Option.some.injEq] at h1 hf
  all_goals
    subst hf
    cases c <;> simp only [stm, reduceCtorEq] at hn
  all_goals first
    | exact AfterGap.name h
    | exact Vs.bare hb (hk.2.2.2.2.2.2.2.2 (by decide)) h
    | exact Body.token h hb (hk.2.2.2.2.2.1 nofun) (hk.2.2.2.2.2.2.1 nofun) (fun _ => hk.2.2.2.2.2.2.2.2 (by decide))
    | exact Body.token h hb (hk.2.2.2.2.2.1 nofun) (hk.2.2.2.2.2.2.1 nofun) nofun
    | exact Bang.decl hb (hk.2.2.2.2.2.2.2.1 nofun) (hk.1 nofun) h
    | exact Decl.word hb (hk.2.2.2.2.2.2.2.2 (by decide)) (hk.2.2.1 nofun) h
    | exact InTag.open_ hb (hk.2.2.2.2.2.2.2.2 (by decide)) (fun _ => hk.2.2.2.2.1 nofun) h
    | exact .inl (InTag.open_ hb (hk.2.2.2.2.2.2.2.2 (by decide)) nofun h)

/-- The texts that lead from a state to the exit. -/
theorem lang_of_auto {q : STMState} {as : List Byte} {ts : Types} (h : Auto q as ts) : Lang q as ts := by
  induction h with
  | exit => exact ⟨rfl, rfl⟩
  | plain h1 hm _ ih =>
    rcases hm with ⟨b, rfl, hn⟩ | ⟨rfl, hf, b, hb, hn⟩
    · exact lang_next h1 hn ih
    · exact lang_fall h1 hf hb hn ih
  | tok h1 h2 h3 h4 hm _ ih => exact lang_tok h1 h2 h3 h4 hm ih
  | key h1 h2 h3 hm _ ih => exact lang_key h1 h3 hm ih
  | ret0 h1 h2 h3 h4 h5 _ ih => exact lang_ret0 h1 h4 h5 ih
  | ret h1 h2 h3 h4 hm _ ih => exact lang_ret h1 h2 h3 h4 hm ih

end TW.Accept
