import Verif.Proofs.PathParse
import Verif.Props.Path

/-!
# Properties C47, C65: path expressions as text
-/

namespace TW

open Spec Spec.Path TW.Path

theorem nsPos_none {bs : List Byte} (h : ∀ i, ¬ (bs[i]? = some 58 ∧ bs[i + 1]? = some 58)) (k : Nat) : nsPos bs k = none := by
  induction bs generalizing k with
  | nil => rfl
  | cons b bs ih =>
    unfold nsPos
    rw [if_neg, ih]
    · intro i
      simpa using h (i + 1)
    · rintro ⟨rfl, h1⟩
      refine h 0 ⟨rfl, ?_⟩
      cases bs with
      | nil => cases h1
      | cons c bs => simpa using h1

theorem nsPos_some {bs : List Byte} {i : Nat} (h : bs[i]? = some 58 ∧ bs[i + 1]? = some 58)
    (hf : ∀ j, j < i → ¬ (bs[j]? = some 58 ∧ bs[j + 1]? = some 58)) (k : Nat) : nsPos bs k = some (k + i) := by
  induction bs generalizing k i with
  | nil => cases h.1
  | cons b bs ih =>
    unfold nsPos
    cases i with
    | zero =>
      rw [if_pos]
      · rfl
      · refine ⟨by simpa using h.1, ?_⟩
        cases bs with
        | nil => simpa using h.2
        | cons c bs => simpa using h.2
    | succ i =>
      rw [if_neg, ih (i := i)]
      · rw [show k + 1 + i = k + (i + 1) by omega]
      · simpa using h
      · intro j hj
        simpa using hf (j + 1) (by omega)
      · rintro ⟨rfl, h1⟩
        refine hf 0 (by omega) ⟨rfl, ?_⟩
        cases bs with
        | nil => cases h1
        | cons c bs => simpa using h1

theorem texts_length {ks : List Tok} (hk : ∀ k ∈ ks, k.Ok) : ∀ {cs : List UChar}, Texts ks cs → ks.length ≤ cs.length := by
  induction ks with
  | nil => intro cs _; simp
  | cons k ks ih =>
    rintro cs ⟨p, b, r, h1, -, rfl, h2⟩
    have := ih (fun k h => hk k (by simp [h])) h2
    have := List.length_pos_iff.2 ((hk k (by simp)).starts p h1).1
    simp only [List.length_append, List.length_cons]
    omega

theorem runToks_length {e' : Enc} {ks : List Tok} : ∀ {st : PState} {acts : List Act}, runToks e' st ks = some acts → acts.length = ks.length := by
  induction ks with
  | nil => intro st acts h; cases h; rfl
  | cons k ks ih =>
    intro st acts h
    unfold runToks at h
    cases hk : k.next e' st with
    | none => rw [hk] at h; cases h
    | some x =>
      rw [hk] at h
      simp only [Option.map_eq_some_iff] at h
      obtain ⟨acts', h1, rfl⟩ := h
      simp [ih h1]

/-- The scanner at the begin of a text. -/
theorem Rd.begin {se : Enc} (hse : PageOk se) {cs : List UChar} {src : List Byte} (hsrc : src = cs.flatMap se.print)
    (hd : ∀ c ∈ cs, c ≠ 0 ∧ c < 2 ^ 32 ∧ Direct se c) (hlen : src.length + 4 < 2 ^ 32) :
    ∃ hb, Rd src hb se (TextScanner.mk' se (CStr.mk' src)) cs := by
  have hb : ∀ b ∈ src, b < 256 := by
    intro b hb
    rw [hsrc, List.mem_flatMap] at hb
    obtain ⟨c, c1, c2⟩ := hb
    exact print_lt se hse c (hd c c1).2.1 (hd c c1).2.2 b c2
  have hcyc : ∀ j, j < 2 ^ 32 → cyc src j = strm src j := by
    intro j hj
    unfold cyc strm
    rw [Nat.mod_eq_of_lt hj, Nat.mod_eq_of_lt (show src.length < 2 ^ 32 by omega)]
    split
    · rfl
    · simp [List.getElem?_eq_none (show src.length ≤ j by omega)]
  have hat : At (cyc src) 0 (cs.flatMap se.print) := by
    rw [← hsrc]
    refine At_of fun i hi => ?_
    rw [Nat.zero_add, hcyc i (by omega)]
    exact (List.getElem?_eq_some_iff.1 (strm_get src i hi)).2.symm
  refine ⟨hb, 0, .no, TRel.init _ _ _ trivial (cstrSource_start src hb), hat, hd, ?_, by rw [← hsrc, Nat.zero_add]⟩
  rw [← hsrc]
  intro j h1 h2
  rw [hcyc j (by omega)]
  exact strm_end _ _ (by omega)

/-- The parser of an expression of the grammar calls what belongs to it. -/
theorem addExpression_acts {se e : Enc} (hse : PageOk se) {n : Nat} {type : Int} {p : TPath} (hp : p.Ok) {cs : List UChar} (ht : p.Text cs)
    {src : List Byte} (hsrc : src = cs.flatMap se.print) (hd : ∀ c ∈ cs, c ≠ 0 ∧ c < 2 ^ 32 ∧ Direct se c)
    (hns : ∀ i, ¬ (src[i]? = some 58 ∧ src[i + 1]? = some 58)) (hlen : src.length + 4 < 2 ^ 32) (hn : cs.length < n) (a : Atm) :
    addExpression se e n type src a = parsed (runActs e n type (pathActs e p) [{}] a) := by
  obtain ⟨hb, hrd⟩ := Rd.begin hse hsrc hd hlen
  have hk := toks_ok hp
  have hr := runToks_path (e' := e) hp
  have hch : Chain src hb se e n .SelectStart (p.toks.zip (pathActs e p)) := Chain.of hse p.toks .SelectStart _ hk hr
  have hl := runToks_length hr
  have hf : (p.toks.zip (pathActs e p)).map (·.1) = p.toks := List.map_fst_zip (by omega)
  have hs : (p.toks.zip (pathActs e p)).map (·.2) = pathActs e p := List.map_snd_zip (by omega)
  have hlt := texts_length hk ht
  obtain ⟨t', h1⟩ := Chain.loop (e' := e) (n := n) (type := type) hse _ n .SelectStart [{}] _ a cs hch (by rw [hf]; exact ht) hrd
    (by simp; omega) hn
  unfold addExpression
  rw [nsPos_none hns]
  simp only []
  rw [h1, hs]

/-- C47 (partial): for every text of an expression without alternatives - child and descendant steps with identifiers or wildcards, conditions with
attributes and ranges of indices, ending with an attribute, the content or the close tag - with blanks wherever they are allowed, in any
character set, and for every automaton the expression is added to: `addExpression` does the same as the corresponding calls of the building
interface and returns 0, or the exception one of them throws. (C76 treats alternatives.)

Missing: identifiers with a '-' or with characters whose code has the low byte 0 or that of an operator; texts with
two bytes 58 in sequence; see `C47_parser_false`. -/
theorem C47_parser_partial {se e : Enc} (hse : PageOk se) {n : Nat} {type : Int} {p : TPath} (hp : p.Ok) (hs : p.Simple) {cs : List UChar}
    (ht : p.Text cs) {src : List Byte} (hsrc : src = cs.flatMap se.print) (hd : ∀ c ∈ cs, c ≠ 0 ∧ c < 2 ^ 32 ∧ Direct se c)
    (hns : ∀ i, ¬ (src[i]? = some 58 ∧ src[i + 1]? = some 58)) (hlen : src.length + 4 < 2 ^ 32) (hn : cs.length < n) (a : Atm) :
    addExpression se e n type src a =
      match PElem.calls e n {} (p.calls e ++ [.assign type]) a with
      | (.ok _, a') => (.ok 0, a')
      | (.stop er, a') => (.stop er, a') := by
  rw [addExpression_acts hse hp ht hsrc hd hns hlen hn, runActs_calls _ (pathActs_calls hs).2, (pathActs_calls hs).1]
  generalize PElem.calls e n {} (p.calls e ++ [.assign type]) a = x
  obtain ⟨r | r, a'⟩ := x <;> rfl

/-- `//a [ @ b = "c d" ][1 , 2]/ * @x` -/
def exprExample : TPath :=
  ⟨[⟨some true, some (.one [97]), [.attr [98] (.quoted 34 [99, 32, 100]), .range [49] [50]]⟩, ⟨some false, some .any, []⟩],
    .attribute none (some (.one [120]))⟩

example : exprExample.Ok ∧ exprExample.Simple ∧ exprExample.Text (ascii "//a [ @ b = \"c d\" ][1 , 2]/ * @x") ∧
    exprExample.calls .utf8 = [.follow, .tag (some [97]), .ifAttribute (some [98]) (some [99, 32, 100]), .range 1 2, .tag none, .attribute (some [120])] := by
  refine ⟨?_, by simp [exprExample, TPath.Simple], ?_, rfl⟩
  · simp [exprExample, TPath.Ok, TStep.Ok, TName.Ok, TCond.Ok, TValue.Ok, TEnd.Ok, Identifier, Number, IdChar]
    decide
  · have nil : Blanks [] := by simp [Blanks]
    have one : Blanks [32] := by simp [Blanks]
    refine ⟨[47, 47], [], _, rfl, nil, rfl, [97], [32], _, rfl, one, rfl, ascii "[ @ b = \"c d\" ]", [], ascii "[1 , 2]/ * @x", ?_, nil, by decide, ascii "[1 , 2]", [], ascii "/ * @x", ?_, nil,
      by decide, [47], [32], _, rfl, one, rfl, [42], [32], _, rfl, one, rfl, [64], [], _, rfl, nil, rfl, [120], [], [], rfl, nil, rfl, rfl⟩
    · exact ⟨[32], [32], [32], [32], [32], one, one, one, one, one, by decide⟩
    · exact ⟨[], [32], [32], [], nil, one, one, nil, by decide⟩

/-- C47 is false for the names `a-b` and `Ā`: the building interface takes them, and the parser rejects them. In UTF-16 it takes the
character with the code 0x3A3A for the two colons of a namespace. -/
theorem C47_parser_false :
    ((PElem.calls .utf8 100 {} [.tag (some (ascii "a-b")), .assign 1] []).1 = .ok { stateidx := 3 } ∧
      (addExpression .utf8 .utf8 100 1 (ascii "/a-b") []).1 = .ok 3) ∧
    ((PElem.calls .utf8 100 {} [.tag (some [0xC4, 0x80]), .assign 1] []).1 = .ok { stateidx := 3 } ∧
      (addExpression .utf8 .utf8 100 1 (ascii "/" ++ [0xC4, 0x80]) []).1 = .ok 2) ∧
    ((PElem.calls .utf8 100 {} [.tag (some (Enc.utf8.print 0x3A3A)), .assign 1] []).1 = .ok { stateidx := 3 } ∧
      (addExpression (.utf16 true) .utf8 100 1 ([47, 0x3A3A].flatMap (Enc.print (.utf16 true))) []).1 = .ok 3) := by
  decide +kernel

/-- C65: an expression with "::" is rejected, with the position of the first one, and the automaton is not changed. -/
theorem C65_namespaces (se e : Enc) (n : Nat) (type : Int) {src : List Byte} {i : Nat} (h : src[i]? = some 58 ∧ src[i + 1]? = some 58)
    (hf : ∀ j, j < i → ¬ (src[j]? = some 58 ∧ src[j + 1]? = some 58)) (a : Atm) :
    addExpression se e n type src a = (.ok (i + 1), a) := by
  unfold addExpression
  rw [nsPos_some h hf, Nat.zero_add]

example : (ascii "/a:b::c")[4]? = some 58 ∧ (ascii "/a:b::c")[4 + 1]? = some 58 ∧
    ∀ j, j < 4 → ¬ ((ascii "/a:b::c")[j]? = some 58 ∧ (ascii "/a:b::c")[j + 1]? = some 58) := by
  decide

end TW
