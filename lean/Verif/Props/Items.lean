import Verif.Proofs.Items
import Verif.Props.AnySource
import Verif.Props.Pointer

/-!
# Property C95: the number of items
-/

namespace TW

open Spec Mach Scanner

variable {e output : Enc} {em : Option (List (Nat × UChar))} {addr : Nat} {doc : List Byte} {sp : Bool}
  {calls : List (Nat × Bool)}

theorem Mach.Runs.length {f : Nat → Byte} {A : Cfg} {os : List (ElementType × Cfg)} (h : Runs e f calls A os) : os.length = calls.length := by
  induction h with
  | nil => rfl
  | cons _ _ ih => simp [ih]

theorem Mach.Runs.take {f : Nat → Byte} {A : Cfg} {os : List (ElementType × Cfg)} (h : Runs e f calls A os) :
    ∀ k, Runs e f (calls.take k) A (os.take k) := by
  induction h with
  | nil => intro k; simp; exact .nil _
  | cons h1 _ ih =>
    intro k
    cases k with
    | zero => exact .nil _
    | succ k => exact .cons h1 (ih k)

theorem runs_few {os : List (ElementType × Cfg)} (hr : Runs e (strm doc) calls (Cfg.new output em addr) os)
    (hno : ∀ o ∈ os, o.1 ≠ .ErrorOccurred ∧ o.1 ≠ .Exit) : os.length ≤ doc.length :=
  runs_pot (strm_ends doc) hr (fun h => nomatch h) hno

/-- **C95** — Whatever the document, the encodings and the masks, a scanner returns at most as many items as the document has bytes before it
returns the end or an error. -/
theorem C95_few (hb : ∀ b ∈ doc, b < 256) {n : Nat} {os : List Obs} {s1 : Scanner (TextScanner SrcIt)}
    (h : session n sp calls (oneScanner e output em addr doc) = (.ok os, s1)) (hno : ∀ o ∈ os, o.type ≠ .ErrorOccurred ∧ o.type ≠ .Exit) :
    os.length ≤ doc.length := by
  obtain ⟨os', h1, rfl, -⟩ := session_ok (fun _ => oneSrc_wrap) (oneScanner_rel e output em addr doc (strm_lt doc hb)) h
  rw [List.length_map]
  exact runs_few h1 fun o ho => hno _ (List.mem_map_of_mem ho)

/-- The same for a document in chunks. -/
theorem C95_chunks {c : List Byte} {cs : List (List Byte)} (hd : doc = c ++ cs.flatten) (hb : ∀ b ∈ doc, b < 256)
    (hwf : e = .utf8 → Continued doc) {fresh : Bool} (hsp : sp = true → fresh = false) {n : Nat} {os : List Obs} {s1 : Scanner (TextScanner SrcIt)}
    (h : sessionFed n fresh sp calls cs (fedScanner e output em addr c cs) = (.ok os, s1))
    (hno : ∀ o ∈ os, o.type ≠ .ErrorOccurred ∧ o.type ≠ .Exit) : os.length ≤ doc.length := by
  rcases sessionFed_res hwf hsp (fedRel_new _ _ _ _ (!fresh) hd (strm_lt doc hb)) h with h1 | ⟨os', h1, h2⟩
  · cases h1
  · cases h2
    rw [List.length_map]
    exact runs_few h1 fun o ho => hno _ (List.mem_map_of_mem ho)

/-- The same for a document read from a stream, for calls that do not ask for positions. -/
theorem C95_stream {bufsize : Nat} {es : List ReadEvent} (hb : ∀ b ∈ deliver es, b < 256) (hg : GoodReads bufsize es) (hne : NoEmpty es)
    {it : IStreamIt} (hi : IStreamIt.mk' es bufsize = (.ok (), it)) {n : Nat} {os : List Obs} {s1 : Scanner (TextScanner IStreamIt)}
    (h : session n false calls (streamScanner e output em addr it) = (.ok os, s1))
    (hno : ∀ o ∈ os, o.type ≠ .ErrorOccurred ∧ o.type ≠ .Exit) : os.length ≤ (deliver es).length := by
  rcases IStreamIt.Rel.init es bufsize true hg (fun _ => hne) with ⟨it', h1, h2⟩ | ⟨_, h3, _⟩
  · rw [hi] at h1
    cases h1
    obtain ⟨os', h4, rfl, -⟩ := session_ok (sp := false) (fun h => nomatch h) (SRel0.new (S := istreamSource es true hb) h2 trivial output em addr) h
    rw [List.length_map]
    exact runs_few h4 fun o ho => hno _ (List.mem_map_of_mem ho)
  · rw [hi] at h3; cases h3

/-- `<!''''>` with 7 bytes has three items, and `<a>b` repeated has one item for every two bytes. -/
example : (session 100 true [(0xFFFFFF, false), (0xFFFFFF, false), (0xFFFFFF, false)]
      (oneScanner .utf8 .utf8 none 0 (codes "<!''''>"))).1 =
    .ok [⟨.DocAttribValue, [], .Ok, some 3⟩, ⟨.DocAttribValue, [], .Ok, some 5⟩, ⟨.DocAttribEnd, [], .Ok, some 7⟩] := by
  decide +kernel

/-- Items of a document in chunks that meets the conditions. -/
example : (sessionFed 100 true false [(0xFFFFFF, false), (0xFFFFFF, false), (0xFFFFFF, false)] [codes ">b<", codes "/>"]
      (fedScanner .utf8 .utf8 none 0 (codes "<a") [codes ">b<", codes "/>"])).1 =
    .ok [⟨.OpenTag, codes "a", .Ok, none⟩, ⟨.Content, codes "b", .Ok, none⟩, ⟨.CloseTag, [], .Ok, none⟩] := by
  decide +kernel

/-- In a document without comments, processing instructions, CDATA sections and document type declarations, well formed or not, the end or an
error comes after at most as many items as the document has bytes. -/
theorem C95_ends (hb : ∀ b ∈ doc, b < 256) (hd : NoMarkup e doc) {calls : List (Nat × Bool)} (hl : doc.length < calls.length) :
    ∃ N, ∀ n, N ≤ n → ∃ os s1, session n sp calls (oneScanner e output em addr doc) = (.ok os, s1) ∧
      ∃ o ∈ os.take (doc.length + 1), o.type = .ErrorOccurred ∨ o.type = .Exit := by
  obtain ⟨os, hr⟩ := plain_runs hd calls (Cfg.new output em addr) (.new ..) ⟨0, .new ..⟩
  obtain ⟨N, h3⟩ := session_runs (S := oneSrc _ (strm_lt doc hb)) (sp := sp) oneSrc_total (fun _ => oneSrc_wrap) hr
  refine ⟨N, fun n hn => ?_⟩
  obtain ⟨s, h4⟩ := h3 n hn _ (oneScanner_rel e output em addr doc (strm_lt doc hb))
  refine ⟨_, s, h4, ?_⟩
  apply Decidable.byContradiction
  intro hno
  have h5 := runs_few (hr.take (doc.length + 1)) (by
    intro o ho
    have h6 : Mach.obs sp o ∈ (os.map (Mach.obs sp)).take (doc.length + 1) := by
      rw [← List.map_take]
      exact List.mem_map_of_mem ho
    exact ⟨fun h => hno ⟨_, h6, .inl h⟩, fun h => hno ⟨_, h6, .inr h⟩⟩)
  rw [List.length_take, hr.length] at h5
  omega

/-- A text that is not well formed; for a text without these declarations see also Props/Scanner.lean. -/
example : (session 100 false (List.replicate 5 (0xFFFFFF, false)) (oneScanner .utf8 .utf8 none 0 (codes "<a b=c></"))).1 =
    .ok [⟨.OpenTag, codes "a", .Ok, none⟩, ⟨.TagAttribName, codes "b", .Ok, none⟩, ⟨.TagAttribValue, codes "c", .Ok, none⟩,
      ⟨.ErrorOccurred, [], .ErrExpectedTagEnd, none⟩, ⟨.ErrorOccurred, [], .ErrExpectedTagEnd, none⟩] := by
  decide +kernel

end TW
