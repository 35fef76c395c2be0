import Verif.Proofs.FirstError
import Verif.Props.Cut

/-!
# Property C109: where the first error is reported
-/

namespace TW

open Spec Mach Scanner Accept

variable {e output : Enc} {em : Option (List (Nat × UChar))} {addr : Nat} {doc : List Byte} {sp : Bool}
  {calls : List (Nat × Bool)}

/-- The first characters of the text are the beginning of a document of the grammar with a null character at its end. -/
def Begins (e : Enc) (doc : List Byte) (j : Nat) : Prop :=
  ∃ (d : Loose.Document) (z : List Byte), d.Ok ∧ d.spell ++ [0] = (chars e (strm doc) 0 j).map Ch.asc ++ z

theorem Begins.less {j k : Nat} (h : Begins e doc k) (hj : j ≤ k) : Begins e doc j := by
  obtain ⟨d, z, h1, h2⟩ := h
  obtain ⟨i, rfl⟩ := Nat.exists_eq_add_of_le hj
  rw [chars_add, List.map_append, List.append_assoc] at h2
  exact ⟨d, _, h1, h2⟩

/-- **C109** — The first error that is not about an unknown entity is reported with the source at the first character that cannot be continued: what
is before it is the beginning of a document of the grammar, and together with it it is not. -/
theorem C109_at (hb : ∀ b ∈ doc, b < 256) {n m mask : Nat} {os : List Obs}
    {s1 s2 : Scanner (TextScanner SrcIt)} (h : session n sp calls (oneScanner e output em addr doc) = (.ok os, s1)) (ho : OnlyUnknown os)
    (hx : .Exit ∉ os.map Obs.type) (h' : nextItem m mask s1 = (.ok .ErrorOccurred, s2)) (he : s2.error ≠ .ErrUndefinedCharacterEntity) :
    ∃ j, s2.src.getPosition = offs e (strm doc) 0 j % 2 ^ 64 ∧ Begins e doc j ∧ ¬ Begins e doc (j + 1) := by
  obtain ⟨os', A', rfl, h1, h2⟩ := session_then (fun _ => oneSrc_wrap) (oneScanner_rel e output em addr doc (strm_lt doc hb)) h
  obtain ⟨k, B, h3, h4⟩ := nextItem_ok (h1.rel mask) h'
  have h5 := h2 [(mask, false)] [(.ErrorOccurred, B)] (.cons h3 (.nil _))
  obtain ⟨E, mask', us, h6, h7⟩ := passes_to_last (last := (mask, false)) ((onlyUnknown_obs os').1 ho)
    (by rw [List.map_map] at hx; exact hx) h5
  obtain ⟨⟨j, z, ts, h8, h9⟩, h10⟩ := first_error h6 (Inv0.new output em addr) rfl h7 (by rw [← h4.error]; exact he)
  refine ⟨j, ?_, ?_, ?_⟩
  · rw [h4.position oneSrc_wrap, step_err_src h7, ← h8]; rfl
  · obtain ⟨d, k1, k2, -⟩ : ∃ d : Loose.Document, d.Ok ∧ seen e (strm doc) z 0 j = d.spell ++ [0] ∧ ts = d.types := lang_of_auto h9
    exact ⟨d, z, k1, k2.symm⟩
  · rintro ⟨d, z, k1, k2⟩
    refine h10 (j + 1) z d.types ?_ ?_
    · rw [← h8, offs_add, offs_one]
      have := ulen_pos e (strm doc) (offs e (strm doc) (Cfg.new output em addr).src j)
      omega
    · have h0 : seen e (strm doc) z (Cfg.new output em addr).src (j + 1) = d.spell ++ [0] := k2.symm
      rw [h0]
      exact auto_of_document k1

/-- So the place does not depend on the output encoding, the entities, the buffer, the calls and the types of items asked for. -/
theorem C109_same {output' : Enc} {em' : Option (List (Nat × UChar))} {addr' : Nat} {sp' : Bool} {calls' : List (Nat × Bool)}
    (hb : ∀ b ∈ doc, b < 256) {n n' m m' mask mask' : Nat} {os os' : List Obs}
    {s1 s2 s1' s2' : Scanner (TextScanner SrcIt)} (h : session n sp calls (oneScanner e output em addr doc) = (.ok os, s1))
    (h' : session n' sp' calls' (oneScanner e output' em' addr' doc) = (.ok os', s1')) (ho : OnlyUnknown os) (ho' : OnlyUnknown os')
    (hx : .Exit ∉ os.map Obs.type) (hx' : .Exit ∉ os'.map Obs.type)
    (hn : nextItem m mask s1 = (.ok .ErrorOccurred, s2)) (hn' : nextItem m' mask' s1' = (.ok .ErrorOccurred, s2'))
    (he : s2.error ≠ .ErrUndefinedCharacterEntity) (he' : s2'.error ≠ .ErrUndefinedCharacterEntity) :
    s2.src.getPosition = s2'.src.getPosition := by
  obtain ⟨j, h1, h2, h3⟩ := C109_at hb h ho hx hn he
  obtain ⟨j', h1', h2', h3'⟩ := C109_at hb h' ho' hx' hn' he'
  have : j = j' := by
    rcases Nat.lt_trichotomy j j' with h | h | h
    · exact absurd (h2'.less h) h3
    · exact h
    · exact absurd (h2.less h) h3'
  rw [h1, h1', this]

/-- A character of the text that cannot be continued is found, if the document does not end before. -/
theorem C109_found (hb : ∀ b ∈ doc, b < 256) (hl : 2 * doc.length < calls.length) {j : Nat} (hj : j < doc.length)
    (h : ¬ Begins e doc (j + 1)) (hd : ∀ (d : Loose.Document) (N : Nat), N ≤ j → d.Ok → d.spell ++ [0] ≠ (chars e (strm doc) 0 N).map Ch.asc) :
    ∃ k, Reports e output em addr sp doc (calls.take k) := by
  rcases (C108_three (e := e) (output := output) (em := em) (addr := addr) (sp := sp) hb hl).1 with ⟨d, h1, N, h2⟩ | ⟨d, h1, N, z, h2, -, h3⟩ | h1
  · by_cases hN : N ≤ j
    · exact absurd h2 (hd d N hN h1)
    · exact absurd (Begins.less ⟨d, [], h1, by rw [List.append_nil]; exact h2⟩ (Nat.lt_of_not_le hN)) h
  · exact absurd (Begins.less (k := N) ⟨d, z ++ [0], h1, by rw [h3, List.append_assoc]⟩ (by omega)) h
  · exact h1

/-! ## An error in the middle -/

/-- `<a b='c'` can be continued, `<a b='c'd` cannot: the error is reported at the `d`. -/
example :
    let x := session 200 false (List.replicate 3 (2 ^ 32 - 1, false)) (oneScanner .utf8 .utf8 none 0 (codes "<a b='c'd=e>"))
    let y := nextItem 200 (2 ^ 32 - 1) x.2
    x.1 = .ok ([(.OpenTag, "a"), (.TagAttribName, "b"), (.TagAttribValue, "c")].map fun x => ⟨x.1, codes x.2, .Ok, none⟩) ∧
    y.1 = .ok .ErrorOccurred ∧ y.2.error = .ErrExpectedTagAttribute ∧ y.2.src.getPosition = 8 := by
  decide +kernel

/-- No document begins with a character other than white space and `<`. -/
theorem not_begins : ¬ Begins .utf8 (codes "x<a>") 1 := by
  rintro ⟨d, z, h1, h2⟩
  have h3 := auto_of_document h1
  rw [h2, show (chars .utf8 (strm (codes "x<a>")) 0 1).map Ch.asc = [120] by decide +kernel] at h3
  generalize hq : STMState.START = q at h3
  generalize ha : [120] ++ z = as at h3
  generalize d.types = ts at h3
  cases h3 with
  | exit => cases hq
  | plain _ h =>
    subst hq ha
    rcases h with ⟨x, h, h'⟩ | ⟨-, h', -⟩
    · cases h; cases h'
    · cases h'
  | tok h => subst hq; cases h
  | key h => subst hq; cases h
  | ret0 h => subst hq; cases h
  | ret h => subst hq; cases h

/-- It is found. -/
example : ∃ k, Reports .utf8 .utf8 none 0 false (codes "x<a>") ((List.replicate 9 (2 ^ 32 - 1, false)).take k) :=
  C109_found (by decide) (by decide) (j := 0) (by decide) not_begins (by
    intro d N hN _ h
    obtain rfl : N = 0 := Nat.le_zero.1 hN
    have := congrArg List.length h
    simp [chars] at this)

end TW
