import Verif.Proofs.Errors
import Verif.Proofs.Exit

/-!
# Properties C25, C26, C52 and C56: termination, the end and errors

The properties are about a scanner on a document given in one piece (`oneScanner`) and all
objects reached from it by calls of `nextItem` and `getError` (`Scanner.Reached`), except
C26, which holds for every kind of source.
-/

namespace TW

open Spec Mach Scanner

variable (e output : Enc) (em : Option (List (Nat × UChar))) (addr : Nat)

/-! ## C25

Full statement: a call of `nextItem` on a finite input always returns. It is false: in an
unterminated comment, processing instruction, CDATA section or document type declaration with an
internal subset the scanner skips the null at the end of the input forever. -/

/-- With `<!--` a call never returns, however long it runs. -/
theorem C25_terminates_false : ∀ n, ∃ s,
    nextItem n 0xFFFF (oneScanner .utf8 .utf8 none 0 [60, 33, 45, 45]) = (.stop .fuel, s) := by
  have hb : ∀ k, strm [60, 33, 45, 45] k < 256 := strm_lt _ (by decide)
  have hr := oneScanner_rel .utf8 .utf8 none 0 [60, 33, 45, 45] hb
  have h1 : (nextItem 192 0xFFFF (oneScanner .utf8 .utf8 none 0 [60, 33, 45, 45])).1 = .stop .fuel := by
    decide +kernel
  have he := strm_ends [60, 33, 45, 45]
  intro n
  generalize hx : nextItem n 0xFFFF (oneScanner .utf8 .utf8 none 0 [60, 33, 45, 45]) = x
  obtain ⟨x, s⟩ := x
  cases x with
  | stop er => rw [nextItem_total oneSrc_total (hr.rel _) hx]; exact ⟨s, rfl⟩
  | ok r =>
    exfalso
    obtain ⟨m, B, h2, -⟩ := nextItem_ok (hr.rel _) hx
    rcases fin_or_lost (e := .utf8) (mask := 0xFFFF) he 192 (hr.inv.inv _) (meas_le _ _) with
      ⟨m', r', B', h3, h4⟩ | ⟨m', B', h3, h4, h5⟩
    · obtain ⟨s', h6, -⟩ := nextItem_fin oneSrc_total (hr.rel 0xFFFF) h4 h3
      rw [h6] at h1
      cases h1
    · exact h5.never he (h2.split h4).2

/-- A call returns after a number of steps linear in the length of the document, or it never
returns. -/
theorem C25_bound_partial {doc : List Byte} (hb : ∀ b ∈ doc, b < 256) {s : Scanner (TextScanner SrcIt)}
    (h : Reached (oneScanner e output em addr doc) s) (mask : Nat) :
    (∃ r, ∀ n, 32 * (doc.length + 2) ≤ n → ∃ s', nextItem n mask s = (.ok r, s')) ∨
    ∀ n, ∃ s', nextItem n mask s = (.stop .fuel, s') := by
  obtain ⟨A, hr, -⟩ := reached_rel (strm_lt _ hb) h
  have he := strm_ends doc
  rcases fin_or_lost (e := e) (mask := mask) he _ (hr.inv.inv _) (meas_le _ _) with
    ⟨m', r', B', h3, h4⟩ | ⟨m', B', h3, h4, h5⟩
  · left
    refine ⟨r', fun n hn => ?_⟩
    obtain ⟨s', h6, -⟩ := nextItem_fin oneSrc_total (hr.rel mask) h4 (Nat.lt_of_lt_of_le h3 hn)
    exact ⟨s', h6⟩
  · right
    intro n
    generalize hx : nextItem n mask s = x
    obtain ⟨x, s'⟩ := x
    cases x with
    | stop er => rw [nextItem_total oneSrc_total (hr.rel _) hx]; exact ⟨s', rfl⟩
    | ok r =>
      exfalso
      obtain ⟨m, B, h2, -⟩ := nextItem_ok (hr.rel _) hx
      exact h5.never he (h2.split h4).2

/-- In a document without comments, processing instructions, CDATA sections and document type
declarations every call returns, also if the document is malformed. -/
theorem C25_plain_partial {doc : List Byte} (hb : ∀ b ∈ doc, b < 256) (hd : NoMarkup e doc)
    {s : Scanner (TextScanner SrcIt)} (h : Reached (oneScanner e output em addr doc) s) (mask n : Nat)
    (hn : 32 * (doc.length + 2) ≤ n) : ∃ r s', nextItem n mask s = (.ok r, s') := by
  obtain ⟨A, hr, hre⟩ := reached_rel (strm_lt _ hb) h
  have he := strm_ends doc
  have hp : ∃ j, Plain e (strm doc) A j :=
    hre.keeps (fun _ _ _ _ hp hs => Plain.step hd hp hs) (fun c _ => Plain.clr c) ⟨0, Plain.new _ _ _⟩
  rcases fin_or_lost (e := e) (mask := mask) he _ (hr.inv.inv _) (meas_le _ _) with
    ⟨m', r', B', h3, h4⟩ | ⟨m', B', h3, h4, h5⟩
  · obtain ⟨s', h6, -⟩ := nextItem_fin oneSrc_total (hr.rel mask) h4 (Nat.lt_of_lt_of_le h3 hn)
    exact ⟨r', s', h6⟩
  · exfalso
    obtain ⟨j, hj⟩ := h4.keeps (fun _ _ _ hp hs => Plain.step hd hp hs) hp
    exact plain_lost _ hj.plain h5.2

/-- `<a b='c'>&amp;</x` has no markup declarations. -/
example : NoMarkup (.isolatin 1) [60, 97, 32, 98, 61, 39, 99, 39, 62, 38, 97, 109, 112, 59, 60, 47, 120] := by
  intro i j _ _ _
  have ho : ∀ j, offs (.isolatin 1) (strm [60, 97, 32, 98, 61, 39, 99, 39, 62, 38, 97, 109, 112, 59, 60, 47, 120])
      0 j = j := by
    intro j
    induction j with
    | zero => rfl
    | succ j ih => rw [offs, ih]; rfl
  have h : charAt (.isolatin 1) [60, 97, 32, 98, 61, 39, 99, 39, 62, 38, 97, 109, 112, 59, 60, 47, 120] j ≠ 33 ∧
      charAt (.isolatin 1) [60, 97, 32, 98, 61, 39, 99, 39, 62, 38, 97, 109, 112, 59, 60, 47, 120] j ≠ 63 := by
    unfold charAt
    rw [ho]
    by_cases hj : 17 ≤ j
    · rw [Ends.uasc (strm_ends _) hj]; decide
    · have : ∀ j : _root_.Fin 17, uasc (.isolatin 1)
          (strm [60, 97, 32, 98, 61, 39, 99, 39, 62, 38, 97, 109, 112, 59, 60, 47, 120]) j ≠ 33 ∧
          uasc (.isolatin 1)
          (strm [60, 97, 32, 98, 61, 39, 99, 39, 62, 38, 97, 109, 112, 59, 60, 47, 120]) j ≠ 63 := by
        decide +kernel
      exact this ⟨j, by omega⟩
  exact ⟨h.1, fun h1 => absurd h1 h.2⟩

/-! ## C26 -/

/-- Once `nextItem` has returned `Exit` every further call returns `Exit` with an empty item
and the same position, no error is added, and the source is not touched. For any source. -/
theorem C26_exit_final {ρ : Type} [Reader ρ] {n mask : Nat} {s s1 : Scanner ρ}
    (h : nextItem n mask s = (.ok .Exit, s1)) (n' : Nat) (hn : 1 ≤ n') (sp : Bool)
    (calls : List (Nat × Bool)) :
    ∃ obs s2, session n' sp calls s1 = (.ok obs, s2) ∧ obs.length = calls.length ∧ s2.src = s1.src ∧
      ∀ o ∈ obs, o.type = .Exit ∧ o.item = [] ∧ (o.error = s1.error ∨ o.error = .Ok) ∧
        o.pos = if sp then some (Reader.getPosition s1.src) else none :=
  session_exit hn calls (itemLoop_res h)

/-- With a complete element and with an unexpected end. -/
example : (session 40 true [(0xFFFF, true), (0xFFFF, true), (0xFFFF, true)]
    (oneScanner .utf8 .utf8 none 0 [60, 97, 62, 60, 47, 97, 62])).1 =
    .ok [{ type := .OpenTag, item := [97], error := .Ok, pos := some 1 },
         { type := .CloseTag, item := [97], error := .Ok, pos := some 5 },
         { type := .Exit, item := [], error := .Ok, pos := some 8 }] := by decide +kernel

/-! ## C52

Full statement: after a syntax error every further call reports an error again and consumes
nothing. It is false for errors in the key words `xml` and `CDATA`: the scanner leaves the
key word and the next call goes on behind it. It also does not hold for undefined entities, which
are not a syntax error of the automaton. -/

/-- `<?xm ` is an error; the next call reports the start of a header, and it consumes the
blank. -/
theorem C52_key_word_false : (session 40 true [(0xFFFF, true), (0xFFFF, true), (0xFFFF, true)]
    (oneScanner .utf8 .utf8 none 0 [60, 63, 120, 109, 32])).1 =
    .ok [{ type := .ErrorOccurred, item := [], error := .ErrSyntaxToken, pos := some 0 },
         { type := .HeaderStart, item := [], error := .Ok, pos := some 0 },
         { type := .ErrorOccurred, item := [], error := .ErrExpectedEqual, pos := some 5 }] := by
  decide +kernel

/-- Outside of these two states, every call after a syntax error reports the same error again
and stays at the same position, whether the error is cleared with `getError` or not, and
whatever the masks. -/
theorem C52_errors_stable_partial {doc : List Byte} (hb : ∀ b ∈ doc, b < 256)
    {s s1 : Scanner (TextScanner SrcIt)} (h : Reached (oneScanner e output em addr doc) s) {n mask : Nat}
    (he : nextItem n mask s = (.ok .ErrorOccurred, s1)) (hu : s1.error ≠ .ErrUndefinedCharacterEntity)
    (hx : s1.state ≠ .XTAG) (hc : s1.state ≠ .CDATA) (n' : Nat) (hn : 3 ≤ n') (sp : Bool)
    (calls : List (Nat × Bool)) :
    ∃ obs s2, session n' sp calls s1 = (.ok obs, s2) ∧ obs.length = calls.length ∧
      s2.src.getPosition = s1.src.getPosition ∧
      ∀ o ∈ obs, o.type = .ErrorOccurred ∧ o.error = s1.error := by
  obtain ⟨A, hr, hre⟩ := reached_rel (strm_lt _ hb) h
  obtain ⟨hi, hd⟩ := hre.done
  obtain ⟨m, B, ⟨A1, h1, h2⟩, h3⟩ := nextItem_ok (hr.rel mask) he
  obtain ⟨hi1, hd1⟩ := h1.keepsInv (P := DoneOk e (strm doc)) (fun _ _ _ _ _ h => step_done h)
    (hi.inv mask) hd
  obtain ⟨g1, g2, g3⟩ := step_error h2
  rw [h3.error] at hu ⊢
  have hk := keys_states (st := B.state) (by rw [← h3.state]; exact hx) (by rw [← h3.state]; exact hc)
  have hs := stuck_of_error hi1 hd1 h2 hu hk
  have hex : B.state ≠ .EXIT := by rw [g1]; exact g3
  obtain ⟨os, k1, k2, k3⟩ := hs.runs calls hex hk
  obtain ⟨s2, k4, A', k5, -, k6⟩ := session_runs_bound (S := oneSrc doc (strm_lt _ hb)) (sp := sp) (k := 3)
    (P := fun C => Stuck e (strm doc) B.error C ∧ C.state = B.state ∧ C.src = B.src)
    oneSrc_total (fun _ => oneSrc_wrap) (by
      rintro mask C ⟨c1, c2, c3⟩
      obtain ⟨m, D, d1, d2, d3, d4, -, d6⟩ := c1.again (by rw [c2]; exact hex) (by rw [c2]; exact hk) mask
      refine ⟨m, _, D, by omega, d2, fun c => ⟨d6.clr c, ?_⟩⟩
      unfold Mach.clr
      split <;> exact ⟨by simp only [d4, c2], by simp only [d3, c3]⟩) calls ⟨hs, rfl, rfl⟩ hn k1 s1 h3
  refine ⟨_, s2, k4, by simp [k2], ?_, ?_⟩
  · rw [k5.position oneSrc_wrap, h3.position oneSrc_wrap, k6.2.2]
  · intro o ho
    obtain ⟨x, hx, rfl⟩ := List.mem_map.1 ho
    obtain ⟨x1, x2, -⟩ := k3 x hx
    exact ⟨x1, x2⟩

/-- `<a b=<`: the error is reported in the state `TAGAVID`. -/
example : (nextItem 40 0xFFFF (nextItem 40 0xFFFF (nextItem 40 0xFFFF
      (oneScanner .utf8 .utf8 none 0 [60, 97, 32, 98, 61, 60])).2).2).1 = .ok .ErrorOccurred ∧
    (session 40 true [(0xFFFF, true), (0xFFFF, true), (0xFFFF, true), (0, false)]
      (oneScanner .utf8 .utf8 none 0 [60, 97, 32, 98, 61, 60])).1 =
    .ok [{ type := .OpenTag, item := [97], error := .Ok, pos := some 1 },
         { type := .TagAttribName, item := [98], error := .Ok, pos := some 3 },
         { type := .ErrorOccurred, item := [], error := .ErrExpectedTagAttribute, pos := some 5 },
         { type := .ErrorOccurred, item := [], error := .ErrExpectedTagAttribute, pos := some 5 }] := by
  decide +kernel

/-! ## C56 -/

/-- The error code for an internal error is never reported. -/
theorem C56_no_internal_error {doc : List Byte} (hb : ∀ b ∈ doc, b < 256)
    {s : Scanner (TextScanner SrcIt)} (h : Reached (oneScanner e output em addr doc) s) :
    s.error ≠ .ErrInternal := by
  obtain ⟨A, hr, hre⟩ := reached_rel (strm_lt _ hb) h
  rw [hr.error]
  exact hre.noInternal

/-- The error codes are not all `Ok`. -/
example : ∃ s, Reached (oneScanner .utf8 .utf8 none 0 [60, 97, 32, 98, 61, 60]) s ∧
    s.error = .ErrExpectedTagAttribute := by
  have h : (session 40 true [(0xFFFF, false), (0xFFFF, false), (0xFFFF, false)]
      (oneScanner .utf8 .utf8 none 0 [60, 97, 32, 98, 61, 60])).1 = .ok
      [{ type := .OpenTag, item := [97], error := .Ok, pos := some 1 },
         { type := .TagAttribName, item := [98], error := .Ok, pos := some 3 },
         { type := .ErrorOccurred, item := [], error := .ErrExpectedTagAttribute, pos := some 5 }] ∧
      (session 40 true [(0xFFFF, false), (0xFFFF, false), (0xFFFF, false)]
      (oneScanner .utf8 .utf8 none 0 [60, 97, 32, 98, 61, 60])).2.error = .ErrExpectedTagAttribute := by
    decide +kernel
  exact ⟨_, reached_intro h.1, h.2⟩

end TW
