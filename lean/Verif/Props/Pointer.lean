import Verif.Proofs.Pointer
import Verif.Proofs.Reach

/-!
# Property C51: no read behind the terminating null

The source is a pointer into an array: the document, and behind it one null character (one byte for UTF-8 and the
code pages, 2 or 4 bytes for the others). Reading behind the array is undefined behaviour, `.stop .ub`.

Full statement: for every document and every sequence of calls the result is not `.stop .ub`. It is false for
an unterminated comment, processing instruction, CDATA section or document type declaration, and for a UTF-8
sequence that is cut by the terminating null.
-/

namespace TW

open Spec Mach Scanner

/-- A scanner that reads the bytes `mem` with a pointer to the first of them; the array may begin with other bytes. -/
def ptrScanner (e output : Enc) (em : Option (List (Nat × UChar))) (addr : Nat) (mem : List Byte) (pre : List Byte := []) :
    Scanner (TextScanner CharPtr) :=
  Scanner.mk' (TextScanner.mk' e { mem := pre ++ mem, pos := pre.length }) output em addr

/-- The document with a terminating null character. -/
def terminated (e : Enc) (doc : List Byte) : List Byte := doc ++ List.replicate (unitSize e) 0

/-- The document is a sequence of complete characters. -/
def Whole (e : Enc) (doc : List Byte) : Prop := ∃ n, offs e (strm doc) 0 n = doc.length

variable {pre : List Byte} {e output : Enc} {em : Option (List (Nat × UChar))} {addr : Nat} {doc : List Byte} {sp : Bool}
  {calls : List (Nat × Bool)}

theorem ptr_runs (hb : ∀ b ∈ doc, b < 256) (hw : Whole e doc) {os : List (ElementType × Cfg)}
    (hr : Runs e (strm doc) calls (Cfg.new output em addr) os) :
    ∃ N, ∀ n, (∃ s', session n sp calls (ptrScanner e output em addr (terminated e doc) pre)
        = (.ok (os.map (Mach.obs sp)), s')) ∨
      (n < N ∧ ∃ s', session n sp calls (ptrScanner e output em addr (terminated e doc) pre) = (.stop .fuel, s')) := by
  have hst := strm_pad doc (unitSize e)
  have hb' : ∀ b ∈ terminated e doc, b < 256 := by
    intro b h
    rcases List.mem_append.1 h with h | h
    · exact hb b h
    · rw [(List.mem_replicate.1 h).2]; omega
  have hf : Ends (strm (terminated e doc)) doc.length := by
    unfold terminated; rw [hst]; exact strm_ends doc
  have hL : Bnd e (strm (terminated e doc)) doc.length := by
    unfold terminated; rw [hst]; exact hw
  have hr' : Runs e (strm (terminated e doc)) calls (Cfg.new output em addr) os := by
    unfold terminated; rw [hst]; exact hr
  obtain ⟨N, h⟩ := ptr_session (hb := hb') (pre := pre) (sp := sp) hf hL
    (by simp [terminated]) hr'
  have h0 := ptrAt_start pre (terminated e doc) hb'
  exact ⟨N, fun n => h n _ (SRel0.new h0.1 h0.2 output em addr) (.inl ⟨Nat.zero_le _, 0, rfl⟩)⟩

/-- If the calls return on the document given in one piece, then through the pointer the same items are
delivered, and nothing behind the null is read, whatever the fuel. Missing: documents where a call does not return, and
cut characters, for these it is false. -/
theorem C51_returns_partial (hb : ∀ b ∈ doc, b < 256) (hw : Whole e doc) {n' : Nat} {os : List Obs}
    {s1 : Scanner (TextScanner SrcIt)}
    (h : session n' sp calls (oneScanner e output em addr doc) = (.ok os, s1)) :
    ∃ N, ∀ n, (∃ s', session n sp calls (ptrScanner e output em addr (terminated e doc) pre) = (.ok os, s')) ∨
      (n < N ∧ ∃ s', session n sp calls (ptrScanner e output em addr (terminated e doc) pre) = (.stop .fuel, s')) := by
  have hr := oneScanner_rel e output em addr doc (strm_lt doc hb)
  obtain ⟨os', h1, rfl, -⟩ := session_ok (fun _ => oneSrc_wrap) hr h
  exact ptr_runs hb hw h1

/-- `<a>ä</a>` consists of complete characters, and three calls return. -/
example : Whole .utf8 [60, 97, 62, 0xC3, 0xA4, 60, 47, 97, 62] ∧ ∃ os,
    (session 100 true [(0xFFFFFF, false), (0xFFFFFF, false), (0xFFFFFF, true)]
      (oneScanner .utf8 .utf8 none 0 [60, 97, 62, 0xC3, 0xA4, 60, 47, 97, 62])).1 = .ok os ∧ os.length = 3 :=
  ⟨⟨8, by decide +kernel⟩, [⟨.OpenTag, [97], .Ok, some 1⟩, ⟨.Content, [0xC3, 0xA4], .Ok, some 3⟩,
    ⟨.CloseTag, [97], .Ok, some 7⟩], by decide +kernel, rfl⟩

/-- The same document behind two other bytes: the positions count from the begin of the document. -/
example : (session 100 true [(0xFFFFFF, false), (0xFFFFFF, false), (0xFFFFFF, true)]
    (ptrScanner .utf8 .utf8 none 0 (terminated .utf8 [60, 97, 62, 0xC3, 0xA4, 60, 47, 97, 62]) [1, 2])).1 =
    .ok [⟨.OpenTag, [97], .Ok, some 1⟩, ⟨.Content, [0xC3, 0xA4], .Ok, some 3⟩, ⟨.CloseTag, [97], .Ok, some 7⟩] := by
  decide +kernel

theorem plain_runs (hd : NoMarkup e doc) : ∀ (calls : List (Nat × Bool)) (A : Cfg), Inv0 A →
    (∃ j, Plain e (strm doc) A j) → ∃ os, Runs e (strm doc) calls A os := by
  intro calls
  induction calls with
  | nil => intro A _ _; exact ⟨[], .nil A⟩
  | cons mc cs ih =>
    intro A hi hp
    obtain ⟨mask, c⟩ := mc
    have he := strm_ends doc
    rcases fin_or_lost (e := e) (mask := mask) he _ (hi.inv _) (meas_le _ _) with
      ⟨m', r', B', h3, h4⟩ | ⟨m', B', h3, h4, h5⟩
    · have hpB : ∃ j, Plain e (strm doc) B' j := by
        obtain ⟨C, c1, c2⟩ := h4
        exact Plain.step hd (c1.keeps (fun _ _ _ hp hs => Plain.step hd hp hs) hp) c2
      have hiB : Inv0 B' := by
        obtain ⟨C, c1, c2⟩ := h4
        exact step_ret (steps_inv c1 (hi.inv _)) c2
      obtain ⟨os, h6⟩ := ih _ (hiB.clr c) (Plain.clr c hpB)
      exact ⟨_, .cons h4 h6⟩
    · exfalso
      obtain ⟨j, hj⟩ := h4.keeps (fun _ _ _ hp hs => Plain.step hd hp hs) hp
      exact plain_lost _ hj.plain h5.2

/-- In a document without comments, processing instructions, CDATA sections and document type declarations nothing
behind the null is read, also if the document is malformed or ends in the middle of a tag. -/
theorem C51_plain_partial (hb : ∀ b ∈ doc, b < 256) (hw : Whole e doc) (hd : NoMarkup e doc) (n : Nat)
    (s' : Scanner (TextScanner CharPtr)) :
    session n sp calls (ptrScanner e output em addr (terminated e doc) pre) ≠ (.stop .ub, s') := by
  obtain ⟨os, hr⟩ := plain_runs hd calls (Cfg.new output em addr) (.new ..) ⟨0, .new ..⟩
  obtain ⟨N, h⟩ := ptr_runs (pre := pre) (sp := sp) hb hw hr
  intro hs
  rcases h n with ⟨s1, h1⟩ | ⟨-, s1, h1⟩ <;> rw [h1] at hs <;> cases hs

/-- A code page has no cut characters. -/
theorem whole_isolatin (page : Nat) (doc : List Byte) : Whole (.isolatin page) doc := by
  refine ⟨doc.length, ?_⟩
  generalize doc.length = n
  induction n with
  | zero => rfl
  | succ n ih => rw [offs, ih]; rfl

/-- A document that ends in a tag, `<a b`. -/
example : NoMarkup (.isolatin 1) [60, 97, 32, 98] ∧ Whole (.isolatin 1) [60, 97, 32, 98] := by
  refine ⟨?_, whole_isolatin _ _⟩
  intro i j _ _ _
  have ho : ∀ j, offs (.isolatin 1) (strm [60, 97, 32, 98]) 0 j = j := by
    intro j
    induction j with
    | zero => rfl
    | succ j ih => rw [offs, ih]; rfl
  have h : charAt (.isolatin 1) [60, 97, 32, 98] j ≠ 33 ∧ charAt (.isolatin 1) [60, 97, 32, 98] j ≠ 63 := by
    unfold charAt
    rw [ho]
    by_cases hj : 4 ≤ j
    · rw [Ends.uasc (strm_ends _) hj]; decide
    · have : ∀ j : _root_.Fin 4, uasc (.isolatin 1) (strm [60, 97, 32, 98]) j ≠ 33 ∧
          uasc (.isolatin 1) (strm [60, 97, 32, 98]) j ≠ 63 := by
        decide +kernel
      exact this ⟨j, by omega⟩
  exact ⟨h.1, fun h1 => absurd h1 h.2⟩

/-- With `<a><!--` the null is skipped and the bytes behind it are read. -/
theorem C51_comment_false : (session 100 false [(0xFFFFFF, false), (0xFFFFFF, false)]
    (ptrScanner .utf8 .utf8 none 0 (terminated .utf8 [60, 97, 62, 60, 33, 45, 45]))).1 = .stop .ub := by
  decide +kernel

/-- With a UTF-8 sequence that is cut, `<a>` and byte C3, the null is taken for its second byte. -/
theorem C51_cut_false : (session 100 false [(0xFFFFFF, false), (0xFFFFFF, false)]
    (ptrScanner .utf8 .utf8 none 0 (terminated .utf8 [60, 97, 62, 0xC3]))).1 = .stop .ub := by
  decide +kernel

end TW
