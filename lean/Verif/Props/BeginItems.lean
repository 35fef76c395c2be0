import Verif.Proofs.BeginItems
import Verif.Props.AcceptItems
import Verif.Props.FirstError

/-!
# Property C116: the items at the beginning of a text do not depend on what follows
-/

namespace TW

open Spec Mach Scanner AcceptItems

variable {e output : Enc} {em : Option (List (Nat × UChar))} {addr : Nat} {doc : List Byte} {sp : Bool}
  {calls : List (Nat × Bool)} {d : Loose.Document} {j : Nat}

/-- The first `j` characters of the text are the first characters of the document `d` of the grammar with a null character at its end. -/
def BeginsWith (e : Enc) (doc : List Byte) (j : Nat) (d : Loose.Document) : Prop :=
  d.Ok ∧ j ≤ d.spell.length + 1 ∧ (d.spell ++ [0]).take j = (chars e (strm doc) 0 j).map Ch.asc

/-- Item `i` of the document, or one behind it, has a token that is among the first `j` characters together with the character behind it. -/
def Within (j : Nat) (d : Loose.Document) (i : Nat) : Prop :=
  ∃ k y t r, i ≤ k ∧ d.items[k]? = some (y, some (t, r)) ∧ d.spell.length + 1 < j + r.length

/-- The error about a reference to an unknown entity. -/
def UnknownEntity (o : Obs) : Prop := o.type = .ErrorOccurred ∧ o.error = .ErrUndefinedCharacterEntity

theorem beginsWith_split (h : BeginsWith e doc j d) :
    ∃ z, d.spell ++ [0] = (chars e (strm doc) 0 j).map Ch.asc ++ z ∧ j + z.length = d.spell.length + 1 := by
  obtain ⟨-, h1, h2⟩ := h
  refine ⟨(d.spell ++ [0]).drop j, by rw [← h2, List.take_append_drop], ?_⟩
  rw [List.length_drop, List.length_append, List.length_singleton]
  omega

theorem beginsWith_of_split {z : List Byte} (h1 : d.Ok) (h2 : d.spell ++ [0] = (chars e (strm doc) 0 j).map Ch.asc ++ z) : BeginsWith e doc j d := by
  have hl : ((chars e (strm doc) 0 j).map Ch.asc).length = j := by rw [List.length_map, chars_length]
  refine ⟨h1, ?_, ?_⟩
  · have := congrArg List.length h2
    rw [List.length_append, List.length_append, hl, List.length_singleton] at this
    omega
  · rw [h2, List.take_append_of_le_length (by omega), List.take_of_length_le (by omega)]

theorem isItem_of_text {z : List Byte} (hN : j + z.length = d.spell.length + 1) {o : ElementType × Cfg} {x : Loose.Item} {m : Nat} (k1 : x.1 = o.1)
    (k2 : m.testBit o.1.toNat = true → ∀ t as, x.2 = some (t, as) →
      TextAt e (strm doc) (userChar (Cfg.new output em addr)) (Cfg.new output em addr).output (j + z.length) t as o.2) :
    IsItem e output (found em addr) doc sp m d x (Mach.obs sp o) := by
  refine ⟨k1.symm, fun hb t r ht => ⟨o.2.tokenpos, ?_, ?_, ?_, (k2 hb t r ht).chs, (k2 hb t r ht).out⟩⟩
  · rw [(k2 hb t r ht).pos, hN, List.length_append]
  · have := (k2 hb t r ht).le
    rw [List.length_append] at this
    omega
  · rintro rfl
    rfl

theorem runs_begin_isItem {os : List (ElementType × Cfg)} (hd : BeginsWith e doc j d)
    (hr : Runs e (strm doc) calls (Cfg.new output em addr) os) {i : Nat} {o : ElementType × Cfg} {x : Loose.Item} {m : Nat} {c : Bool}
    (ho : os[i]? = some o) (hm : calls[i]? = some (m, c)) (hx : d.items[i]? = some x) (hw : Within j d i)
    (he : ∀ o ∈ os.take i, o.1 ≠ .ErrorOccurred) :
    UnknownEntity (Mach.obs sp o) ∨ IsItem e output (found em addr) doc sp m d x (Mach.obs sp o) := by
  obtain ⟨z, h2, hN⟩ := beginsWith_split hd
  have ha : LAuto .START (seen e (strm doc) z 0 j) d.items := by
    unfold seen view; rw [← h2]; exact AcceptItems.auto_of_document hd.1
  have hnear : Near z (d.items.drop i) := by
    obtain ⟨k, y, t, r, k1, k2, k3⟩ := hw
    refine ⟨(y, some (t, r)), ?_, t, r, rfl, by omega⟩
    refine List.mem_of_getElem? (i := k - i) ?_
    rw [List.getElem?_drop, Nat.add_sub_cancel' k1]
    exact k2
  rcases runs_begin hr (.new _ _ _) (BGoes.new ha) ha.kinds i o.1 o.2 x ho hx hnear he with ⟨k1, k2⟩ | ⟨k1, k2⟩
  · exact .inl ⟨k1, k2⟩
  · exact .inr (isItem_of_text hN k1 (k2 m c hm))

/-- **C116** — If the first characters of a text are the ones of a document of the grammar, the scanner tells the items of the document that end
there with their types, positions and texts, whatever follows in the text, up to the first reference to an unknown entity. -/
theorem C116_items (hb : ∀ b ∈ doc, b < 256) (hd : BeginsWith e doc j d) {n : Nat} {os : List Obs} {s1 : Scanner (TextScanner SrcIt)}
    (h : session n sp calls (oneScanner e output em addr doc) = (.ok os, s1)) {i : Nat} {o : Obs} {x : Loose.Item} {m : Nat} {b : Bool}
    (ho : os[i]? = some o) (hm : calls[i]? = some (m, b)) (hx : d.items[i]? = some x) (hw : Within j d i)
    (he : ∀ o ∈ os.take i, o.type ≠ .ErrorOccurred) :
    UnknownEntity o ∨ IsItem e output (found em addr) doc sp m d x o := by
  obtain ⟨os', h1, rfl, -⟩ := session_ok (fun _ => oneSrc_wrap) (oneScanner_rel e output em addr doc (strm_lt doc hb)) h
  rw [List.getElem?_map] at ho
  cases hy : os'[i]? with
  | none => rw [hy] at ho; cases ho
  | some y =>
    rw [hy] at ho
    cases ho
    exact runs_begin_isItem hd h1 hy hm hx hw fun o ho => he (Mach.obs sp o) (by rw [← List.map_take]; exact List.mem_map_of_mem ho)

/-- The same for a text in chunks. -/
theorem C116_chunks {c : List Byte} {cs : List (List Byte)} (hc : doc = c ++ cs.flatten) (hb : ∀ b ∈ doc, b < 256)
    (hwf : e = .utf8 → Continued doc) {fresh : Bool} (hsp : sp = true → fresh = false) (hd : BeginsWith e doc j d)
    {n : Nat} {os : List Obs} {s1 : Scanner (TextScanner SrcIt)} (h : sessionFed n fresh sp calls cs (fedScanner e output em addr c cs) = (.ok os, s1))
    {i : Nat} {o : Obs} {x : Loose.Item} {m : Nat} {b : Bool} (ho : os[i]? = some o) (hm : calls[i]? = some (m, b)) (hx : d.items[i]? = some x)
    (hw : Within j d i) (he : ∀ o ∈ os.take i, o.type ≠ .ErrorOccurred) :
    UnknownEntity o ∨ IsItem e output (found em addr) doc sp m d x o := by
  rcases sessionFed_res hwf hsp (fedRel_new _ _ _ _ (!fresh) hc (strm_lt doc hb)) h with h1 | ⟨os', h1, h2⟩
  · cases h1
  · cases h2
    rw [List.getElem?_map] at ho
    cases hy : os'[i]? with
    | none => rw [hy] at ho; cases ho
    | some y =>
      rw [hy] at ho
      cases ho
      exact runs_begin_isItem hd h1 hy hm hx hw fun o ho => he (Mach.obs sp o) (by rw [← List.map_take]; exact List.mem_map_of_mem ho)

theorem runs_wrong {os : List (ElementType × Cfg)} {last : Nat × Bool} {B : Cfg}
    (h5 : Runs e (strm doc) (calls ++ [last]) (Cfg.new output em addr) (os ++ [(.ErrorOccurred, B)])) (hg : ∀ o ∈ os, o.1 ≠ .ErrorOccurred)
    (hx : .Exit ∉ os.map (·.1)) (he : B.error ≠ .ErrUndefinedCharacterEntity) :
    ∃ j, B.src = offs e (strm doc) 0 j ∧ (∃ d, BeginsWith e doc j d) ∧ (∀ d, ¬ BeginsWith e doc (j + 1) d) ∧
      ∀ d, BeginsWith e doc j d → ∀ (i : Nat) o m b, (os.map (Mach.obs sp))[i]? = some o → calls[i]? = some (m, b) →
        ∃ x, d.items[i]? = some x ∧ IsItem e output (found em addr) doc sp m d x o := by
  obtain ⟨E, mask', us, h6, h7⟩ := passes_to_last (fun o ho h0 => absurd h0 (hg o ho)) hx h5
  obtain ⟨⟨j, z, ts, h8, h9⟩, h10⟩ := first_error h6 (Inv0.new output em addr) rfl h7 he
  have hB : B.src = offs e (strm doc) 0 j := by rw [step_err_src h7, ← h8]; rfl
  refine ⟨j, hB, ?_, ?_, ?_⟩
  · obtain ⟨d, k1, k2, -⟩ : ∃ d : Loose.Document, d.Ok ∧ seen e (strm doc) z 0 j = d.spell ++ [0] ∧ ts = d.types := Accept.lang_of_auto h9
    exact ⟨d, beginsWith_of_split (z := z) k1 k2.symm⟩
  · intro d hd
    obtain ⟨z, k2, -⟩ := beginsWith_split hd
    refine h10 (j + 1) z d.types ?_ ?_
    · rw [← h8, offs_add, offs_one]
      have := ulen_pos e (strm doc) (offs e (strm doc) (Cfg.new output em addr).src j)
      omega
    · have h0 : seen e (strm doc) z (Cfg.new output em addr).src (j + 1) = d.spell ++ [0] := k2.symm
      rw [h0]
      exact Accept.auto_of_document hd.1
  · intro d hd i o m b ho hm
    obtain ⟨z, k2, hN⟩ := beginsWith_split hd
    have ha : LAuto .START (seen e (strm doc) z 0 j) d.items := by
      unfold seen view; rw [← k2]; exact AcceptItems.auto_of_document hd.1
    rw [List.getElem?_map] at ho
    cases hy : os[i]? with
    | none => rw [hy] at ho; cases ho
    | some y =>
      rw [hy] at ho
      cases ho
      obtain ⟨x, l1, l2, l3⟩ := runs_before hB he h5 hg hx (.new _ _ _) (BGoes.new ha) ha.kinds i y hy
      exact ⟨x, l1, isItem_of_text hN l2 (l3 m b hm)⟩

/-- For a text with an error: what is in front of the character at which the error is reported is the beginning of a document of the grammar, with
the character it is not, and all items told before the error are the first ones of any document that begins like this. -/
theorem C116_wrong (hb : ∀ b ∈ doc, b < 256) {n k mask : Nat} {os : List Obs} {s1 s2 : Scanner (TextScanner SrcIt)}
    (h : session n sp calls (oneScanner e output em addr doc) = (.ok os, s1)) (hg : ∀ o ∈ os, o.type ≠ .ErrorOccurred)
    (hx : .Exit ∉ os.map Obs.type) (h' : nextItem k mask s1 = (.ok .ErrorOccurred, s2)) (he : s2.error ≠ .ErrUndefinedCharacterEntity) :
    ∃ j, s2.src.getPosition = offs e (strm doc) 0 j % 2 ^ 64 ∧ (∃ d, BeginsWith e doc j d) ∧ (∀ d, ¬ BeginsWith e doc (j + 1) d) ∧
      ∀ d, BeginsWith e doc j d → ∀ (i : Nat) o m b, os[i]? = some o → calls[i]? = some (m, b) →
        ∃ x, d.items[i]? = some x ∧ IsItem e output (found em addr) doc sp m d x o := by
  obtain ⟨os', A', rfl, h1, h2⟩ := session_then (fun _ => oneSrc_wrap) (oneScanner_rel e output em addr doc (strm_lt doc hb)) h
  obtain ⟨k, B, h3, h4⟩ := nextItem_ok (h1.rel mask) h'
  obtain ⟨j, hB, h5⟩ := runs_wrong (sp := sp) (h2 [(mask, false)] [(.ErrorOccurred, B)] (.cons h3 (.nil _)))
    (fun o ho => hg (Mach.obs sp o) (List.mem_map_of_mem ho)) (by rw [List.map_map] at hx; exact hx) (by rw [← h4.error]; exact he)
  exact ⟨j, by rw [h4.position oneSrc_wrap, hB], h5⟩

/-- The same for a text in chunks, with the error the last thing told. -/
theorem C116_wrong_chunks {c : List Byte} {cs : List (List Byte)} (hc : doc = c ++ cs.flatten) (hb : ∀ b ∈ doc, b < 256)
    (hwf : e = .utf8 → Continued doc) {fresh : Bool} (hsp : sp = true → fresh = false) {n : Nat} {last : Nat × Bool} {os : List Obs} {o' : Obs}
    {s1 : Scanner (TextScanner SrcIt)} (h : sessionFed n fresh sp (calls ++ [last]) cs (fedScanner e output em addr c cs) = (.ok (os ++ [o']), s1))
    (hg : ∀ o ∈ os, o.type ≠ .ErrorOccurred) (hx : .Exit ∉ os.map Obs.type) (ho' : o'.type = .ErrorOccurred)
    (he : o'.error ≠ .ErrUndefinedCharacterEntity) :
    ∃ j, (∃ d, BeginsWith e doc j d) ∧ (∀ d, ¬ BeginsWith e doc (j + 1) d) ∧
      ∀ d, BeginsWith e doc j d → ∀ (i : Nat) o m b, os[i]? = some o → calls[i]? = some (m, b) →
        ∃ x, d.items[i]? = some x ∧ IsItem e output (found em addr) doc sp m d x o := by
  rcases sessionFed_res hwf hsp (fedRel_new _ _ _ _ (!fresh) hc (strm_lt doc hb)) h with h1 | ⟨os', h1, h2⟩
  · cases h1
  · obtain ⟨os1, os2, rfl, h3, h4⟩ := List.append_eq_map_iff.1 (Res.ok.inj h2)
    subst h3
    obtain ⟨⟨r, B⟩, tl, rfl, h5, h6⟩ := List.map_eq_cons_iff.1 h4
    have : tl = [] := List.map_eq_nil_iff.1 h6
    subst this
    subst h5
    have ho' : r = .ErrorOccurred := ho'
    subst ho'
    obtain ⟨j, -, h7⟩ := runs_wrong (sp := sp) h1 (fun o ho => hg (Mach.obs sp o) (List.mem_map_of_mem ho)) (by rw [List.map_map] at hx; exact hx) he
    exact ⟨j, h7⟩

/-- For a text that is cut off, on which a call does not return (C108). -/
theorem C116_cut (hd : CutOff e doc d) : ∃ N, doc.length < N ∧ BeginsWith e doc N d := by
  obtain ⟨h1, N, z, h2, -, h3⟩ := hd
  exact ⟨N, h2, beginsWith_of_split (z := z ++ [0]) h1 (by rw [h3, List.append_assoc])⟩

/-! ## A text -/

/-- The beginning of `itemsExample`, up to the content, and a closing tag with an error behind it. -/
def wrongExample : List Byte := itemsExample.spell.take 32 ++ codes "</d e>"

/-- The text begins like the document, whose first eight items end there; it is not one itself. -/
example : BeginsWith .utf8 wrongExample 33 itemsExample ∧ (∀ i, i ≤ 7 → Within 33 itemsExample i) :=
  ⟨⟨itemsExample_ok, by decide +kernel, by decide +kernel⟩,
   fun i hi => ⟨7, .Content, [112, 13, 113], codes "<c/ > </a>" ++ [0], hi, by decide +kernel, by decide +kernel⟩⟩

/-- The scanner tells these items, and then the name of the closing tag. -/
example : ((session 300 true (List.replicate 9 (0xFFFF, false)) (oneScanner .utf8 .utf8 none 0 wrongExample)).1) =
    .ok ([(.HeaderStart, "?xml", 0), (.HeaderAttribName, "v", 6), (.HeaderAttribValue, "1", 9), (.HeaderEnd, "", 13), (.OpenTag, "a", 15),
      (.TagAttribName, "b", 18), (.TagAttribValue, "x\ny", 23), (.Content, "p\nq", 29), (.CloseTag, "d", 34)].map
        fun x => ⟨x.1, codes x.2.1, .Ok, some x.2.2⟩) := by
  decide +kernel

/-- Then it reports the error at the character `e`. -/
example : (fun x : Res ElementType × Scanner (TextScanner SrcIt) => (x.1, x.2.error, x.2.src.getPosition))
    (nextItem 300 0xFFFF (session 300 true (List.replicate 9 (0xFFFF, false)) (oneScanner .utf8 .utf8 none 0 wrongExample)).2) =
    (.ok .ErrorOccurred, .ErrExpectedTagEnd, 36) := by
  decide +kernel

/-- The same in two chunks, with the error the last thing told. -/
example : Continued wrongExample ∧ wrongExample = wrongExample.take 20 ++ [wrongExample.drop 20].flatten ∧
    ((sessionFed 300 false true (List.replicate 9 (0xFFFF, false) ++ [(0xFFFF, false)]) [wrongExample.drop 20]
      (fedScanner .utf8 .utf8 none 0 (wrongExample.take 20) [wrongExample.drop 20])).1) =
    .ok ([(.HeaderStart, "?xml", 0), (.HeaderAttribName, "v", 6), (.HeaderAttribValue, "1", 9), (.HeaderEnd, "", 13), (.OpenTag, "a", 15),
      (.TagAttribName, "b", 18), (.TagAttribValue, "x\ny", 23), (.Content, "p\nq", 29), (.CloseTag, "d", 34)].map
        (fun x => (⟨x.1, codes x.2.1, .Ok, some x.2.2⟩ : Obs)) ++ [⟨.ErrorOccurred, codes "d", .ErrExpectedTagEnd, some 34⟩]) := by
  refine ⟨fun k i h => absurd h ?_, by decide +kernel, by decide +kernel⟩
  have h1 : ∀ b ∈ wrongExample, b < 0xC0 := by decide +kernel
  have h2 : strm wrongExample k < 0xC0 := by
    unfold strm
    rw [List.getD_eq_getElem?_getD]
    cases h : wrongExample[k]? with
    | none => decide
    | some b => exact h1 b (List.mem_of_getElem? h)
  omega

/-- `<a>` -/
def shortExample : Loose.Document := ⟨[], some (.mark ⟨[], .open_ (codes "a") [] [] none, []⟩, [])⟩

theorem shortExample_ok : shortExample.Ok := by
  refine ⟨by unfold Gaps Gap; decide, ?_⟩
  intro c hc
  cases hc
  refine ⟨⟨by unfold Gaps Gap; decide, ⟨by unfold Loose.Chars; decide, ?_, nofun, nofun⟩, by unfold Loose.Chars; decide⟩, nofun⟩
  unfold Loose.AttrsOk Gaps Gap; decide

/-- The character behind the token has to be there: `<ab>` begins like `<a>` up to the end of its name, but the name told is `ab`. -/
example : BeginsWith .utf8 (codes "<ab>") 2 shortExample ∧ shortExample.items[0]? = some (.OpenTag, some (codes "a", codes ">" ++ [0])) ∧
    ((session 100 true [(0xFFFF, false)] (oneScanner .utf8 .utf8 none 0 (codes "<ab>"))).1) = .ok [⟨.OpenTag, codes "ab", .Ok, some 1⟩] :=
  ⟨⟨shortExample_ok, by decide +kernel, by decide +kernel⟩, by decide +kernel, by decide +kernel⟩

/-- A text that is cut off, with an unknown entity. -/
example : ∃ N, BeginsWith .utf8 (codes "<a>&x;<!--b") N cutExample :=
  (C116_cut cutExample_cut).imp fun _ h => h.2

end TW
