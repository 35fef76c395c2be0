import Verif.Proofs.HeaderText
import Verif.Spec.Items

/-!
# Property C110: what the header parser says about any text
-/

namespace TW

open Spec Spec.Hdr HdrParser

/-- The encoding told: none if it is empty. -/
def Spec.Hdr.encodingOf (en : List Byte) : Option (List Byte) := if en = [] then none else some en

/-- What the user sees of a verdict. -/
def Spec.Hdr.Seen (v : Option (Option String)) (en : List Byte) (x : Res Outcome × HdrParser) : Prop :=
  x.1 = .ok (match v with | none => .more | some none => .done | some (some _) => .failed) ∧
  x.2.getEncoding = encodingOf en ∧ x.2.getLasterror = v.join

theorem Spec.Hdr.Wrong.text {p : Place} {c : Byte} {m : String} (h : Wrong p c m) : m ≠ "" := by
  cases h <;> decide

theorem Spec.Hdr.seen_of {v : Option (Option String)} {en t : List Byte} (h : Verdict t v en) {x : Res Outcome × HdrParser}
    (h1 : x.1 = (crun new t).1) (h2 : x.2.encoding = (crun new t).2.encoding) (h3 : x.2.lasterror = (crun new t).2.lasterror) :
    Seen v en x := by
  obtain ⟨g1, g2, g3⟩ := crun_verdict h
  refine ⟨?_, ?_, ?_⟩
  · rw [h1, g1]; cases h <;> rfl
  · unfold getEncoding encodingOf; rw [h2, g2]
  · unfold getLasterror
    rw [h3, g3]
    cases h with
    | more => rfl
    | done => rfl
    | failed _ _ h => simp [told, h.text]

/-- C110. If no exception is thrown, then the parser tells of the bytes put into it, in any chunks, what is to be said about
their text, that are the bytes but the nulls: more is needed, the header is complete, or which mistake there is, and the
encoding declared. -/
theorem C110_sound (parts : List (List Byte)) {n : Nat} (hn : parts.flatten.length < n)
    (h : (feed n parts new).1 ≠ .stop (.throw .IllegalXmlHeader)) :
    ∃ v en, Verdict (parts.flatten.filter (· ≠ 0)) v en ∧ Seen v en (feed n parts new) := by
  obtain ⟨v, en, hv⟩ := verdict_nn parts.flatten
  obtain ⟨x, y, -, h1, h2, -⟩ := feed_hrun parts new (by decide) rfl rfl hn
  have hs : ∀ e, (hrun new parts.flatten).1 ≠ .stop e := fun e he =>
    h (by rw [h1, he, (hrun_facts parts.flatten new (by decide)).2.2.2.2.2 e he])
  obtain ⟨g1, g2⟩ := hrun_nn parts.flatten (s := new) (t := new) rfl hs
  have g2 : off 0 0 [] (hrun new parts.flatten).2 = off 0 0 [] (crun new (nn parts.flatten)).2 := g2
  have e1 : (hrun new parts.flatten).2.encoding = (crun new (nn parts.flatten)).2.encoding := congrArg (·.encoding) g2
  have e2 : (hrun new parts.flatten).2.lasterror = (crun new (nn parts.flatten)).2.lasterror := congrArg (·.lasterror) g2
  exact ⟨v, en, hv, seen_of hv (h1.trans g1) (by rw [h2]; exact e1) (by rw [h2]; exact e2)⟩

/-- Only one thing is to be said about a text. -/
theorem C110_unique {t en en' : List Byte} {v v' : Option (Option String)} (h : Verdict t v en) (h' : Verdict t v' en') :
    v = v' ∧ en = en' := by
  obtain ⟨g1, g2, g3⟩ := crun_verdict h
  obtain ⟨g1', g2', g3'⟩ := crun_verdict h'
  rw [g1] at g1'
  rw [g2] at g2'
  rw [g3] at g3'
  refine ⟨?_, g2'⟩
  rcases v with _ | _ | m <;> rcases v' with _ | _ | m' <;> first | rfl | (simp [told] at g1'; done) | skip
  simp only [told] at g3'
  rw [g3']

/-- So the parser tells exactly this. -/
theorem C110_exactly (parts : List (List Byte)) {n : Nat} (hn : parts.flatten.length < n)
    (h : (feed n parts new).1 ≠ .stop (.throw .IllegalXmlHeader)) {v : Option (Option String)} {en : List Byte}
    (hv : Verdict (parts.flatten.filter (· ≠ 0)) v en) : Seen v en (feed n parts new) := by
  obtain ⟨v', en', h1, h2⟩ := C110_sound parts hn h
  obtain ⟨rfl, rfl⟩ := C110_unique hv h1
  exact h2

/-- The exception is thrown exactly if four nulls follow a text that can be continued to a header. -/
theorem C110_throws (parts : List (List Byte)) {n : Nat} (hn : parts.flatten.length < n) :
    (feed n parts new).1 = .stop (.throw .IllegalXmlHeader) ↔
    ∃ pre rest p en, parts.flatten = pre ++ [0, 0, 0, 0] ++ rest ∧ At (pre.filter (· ≠ 0)) p en := by
  obtain ⟨x, y, -, h1, -, -⟩ := feed_hrun parts new (by decide) rfl rfl hn
  rw [h1]
  constructor
  · intro h
    obtain ⟨pre, rest, h2, h3⟩ := hrun_stop parts.flatten (s := new) (t := new) rfl (by decide) h
    obtain ⟨v, en, hv⟩ := verdict_nn pre
    have h4 := (crun_verdict hv).1
    rw [h3] at h4
    have : nn pre = pre.filter (· ≠ 0) := rfl
    rw [this] at hv
    generalize ht : pre.filter (· ≠ 0) = t at hv
    cases hv with
    | more hv => exact ⟨pre, rest, _, en, h2, by rw [ht]; exact hv⟩
    | done => cases h4
    | failed => cases h4
  · rintro ⟨pre, rest, p, en, h2, h3⟩
    rw [h2, List.append_assoc, hrun_append]
    have h4 := (hrun_facts pre new (by decide))
    rcases hr : hrun new pre with ⟨r, s⟩
    rw [hr] at h4
    cases r with
    | stop e => rw [h4.2.2.2.2.2 e rfl]
    | ok o =>
      have h5 := hrun_nn pre (s := new) (t := new) rfl (by rw [hr]; exact nofun)
      have h6 := (crun_verdict (.more h3)).1
      rw [show pre.filter (· ≠ 0) = nn pre from rfl, ← h5.1, hr] at h6
      cases h6
      have h7 : s.zeroCount < 4 := h4.2.2.2.2.1 rfl
      have key : ∀ (k : Nat) (s : HdrParser) (bs : List Byte), s.zeroCount + k = 4 → 1 ≤ k →
          (hrun s (List.replicate k 0 ++ bs)).1 = .stop (.throw .IllegalXmlHeader) := by
        intro k s bs hk h1
        obtain ⟨k, rfl⟩ : ∃ j, k = j + 1 := ⟨k - 1, by omega⟩
        rw [List.replicate_succ', List.append_assoc, hrun_zeros k s _ (by omega)]
        show (hrun _ (0 :: bs)).1 = _
        rw [hrun_zero_throw (by simp only; omega)]
      have := key (4 - s.zeroCount) s (List.replicate s.zeroCount 0 ++ rest) (by omega) (by omega)
      rw [← List.append_assoc, List.replicate_append_replicate, show 4 - s.zeroCount + s.zeroCount = 4 by omega] at this
      exact this

/-- A header with white space, without a version and without white space between the attributes. -/
example : Verdict (codes " < ?xml standalone=''encoding = 'x'?") (some none) (codes "x") := by
  have h1 := Between.start (w0 := [32]) (w1 := [32]) (w2 := [32]) (by unfold Blank; decide) (by unfold Blank; decide) (by unfold Blank; decide) (by decide)
  have h2 := Between.attr (a := ⟨.standalone, [], [], false, [], []⟩) h1 ⟨by unfold Blank; decide, by unfold Blank; decide, by unfold Blank; decide, by decide⟩
  have h3 := Between.attr (a := ⟨.encoding, [32], [32], false, [120], []⟩) h2 ⟨by unfold Blank; decide, by unfold Blank; decide, by unfold Blank; decide, by decide⟩
  exact Verdict.done (rest := []) (.between h3) .between

example : obs (feed 60 [codes " < ?xml standalo", codes "ne=''encoding = 'x'?>"] new) = (.ok .done, some (codes "x"), none, 31) := by
  decide +kernel

/-- No header. -/
example : Verdict (codes "<a>") (some none) [] :=
  .done (t := [60]) (rest := [62]) (.opened (w0 := []) (w1 := []) nofun nofun) (.tag (.inr (.inl (by decide))))

/-- A mistake: the bracket in place of the question mark, and the message of the code. -/
example : Verdict (codes "<?xml>") (some (some "unexpected close angle bracket '>' in xml header after '<?xml'")) [] :=
  .failed (t := codes "<?xml") (rest := []) (.target (w0 := []) (w1 := []) (nm := codes "xml") nofun nofun
    (by unfold Letter; decide)) (by decide) .targetClose

example : obs (feed 60 [codes "<?xml>"] new) =
    (.ok .failed, none, some "unexpected close angle bracket '>' in xml header after '<?xml'", 6) := by decide +kernel

/-- Four nulls within and behind the header. -/
example : (feed 60 [[60, 0, 63], [0, 0, 0, 0]] new).1 = .stop (.throw .IllegalXmlHeader) ∧
    (feed 60 [[60, 0, 97], [0, 0, 0, 0]] new).1 = .ok .done := by decide +kernel

end TW
