import Verif.Proofs.AcceptRefs
import Verif.Props.AcceptItems

/-!
# Property C114: everything a scanner says about an accepted document with references
-/

namespace TW

open Spec Mach Scanner AcceptItems

variable {e output : Enc} {em : Option (List (Nat × UChar))} {addr : Nat} {doc : List Byte} {sp : Bool}
  {calls : List (Nat × Bool)} {d : Loose.Document}

/-- `o` stands where the characters `t` begin, with `r` behind them up to the end of the document of `len` characters, and has the value of the first of
these characters, as many as in `v`, for text. `next` is behind those. -/
structure Shows (e output : Enc) (user : Option UChar) (doc : List Byte) (sp : Bool) (len : Nat) (t r v : List Byte) (next : Byte) (o : Obs) : Prop where
  within : t.length + r.length ≤ len
  pos : sp = true → o.pos = some (offs e (strm doc) 0 (len - (t.length + r.length)) % 2 ^ 64)
  chars : (chars e (strm doc) (offs e (strm doc) 0 (len - (t.length + r.length))) t.length).map Ch.asc = t
  text : ∃ ss : List Seg, ss.flatMap Seg.text = Spec.chars e (strm doc) (offs e (strm doc) 0 (len - (t.length + r.length))) v.length ∧
    SegsOk user next ss ∧ o.item = value e output ss

/-- What the calls say about the items left: the next item, of its type and, if it has a text and is asked for, at its place with its value; or, if
there is an unknown entity in the text asked for, an error with the text up to this, and the rest of the text from the semicolon on is the next item. At
the end of the document each call says so. -/
inductive Told (e output : Enc) (user : Option UChar) (doc : List Byte) (sp : Bool) (len : Nat) : List (Nat × Bool) → List Loose.Item → List Obs → Prop where
  | nil {its : List Loose.Item} : Told e output user doc sp len [] its []
  | exit {m : Nat} {c : Bool} {cs : List (Nat × Bool)} {o : Obs} {os : List Obs} : o.type = .Exit →
      Told e output user doc sp len cs [(.Exit, none)] os → Told e output user doc sp len ((m, c) :: cs) [(.Exit, none)] (o :: os)
  | item {m : Nat} {c : Bool} {cs : List (Nat × Bool)} {x : Loose.Item} {its : List Loose.Item} {o : Obs} {os : List Obs} :
      x.1 ≠ .Exit → o.type = x.1 →
      (m.testBit x.1.toNat = true → ∀ t r, x.2 = some (t, r) → (∀ pre post, ¬ FirstUnknown user t pre post) ∧
        Shows e output user doc sp len t r t (r.headD 0) o) →
      Told e output user doc sp len cs its os → Told e output user doc sp len ((m, c) :: cs) (x :: its) (o :: os)
  | unknown {m : Nat} {c : Bool} {cs : List (Nat × Bool)} {ty : ElementType} {t r pre post : List Byte} {its : List Loose.Item} {o : Obs} {os : List Obs} :
      m.testBit ty.toNat = true → FirstUnknown user t pre post →
      o.type = .ErrorOccurred → o.error = .ErrUndefinedCharacterEntity → Shows e output user doc sp len t r pre 38 o →
      Told e output user doc sp len cs ((ty, some (59 :: post, r)) :: its) os →
      Told e output user doc sp len ((m, c) :: cs) ((ty, some (t, r)) :: its) (o :: os)

theorem _root_.TW.AcceptItems.Valued.shows {user : Option UChar} {len : Nat} {t r v : List Byte} {next : Byte} {B : Cfg} {ty : ElementType}
    (h : Valued e (strm doc) user output len t r v next B) : Shows e output user doc sp len t r v next (Mach.obs sp (ty, B)) := by
  obtain ⟨h1, h2, h3, h4⟩ := h
  rw [List.length_append] at h1 h2
  rw [h2] at h3 h4
  refine ⟨h1, ?_, h3, h4⟩
  rintro rfl
  rw [← h2]
  rfl

theorem told_exits {user : Option UChar} {len : Nat} {f : Nat → Byte} {A : Cfg} {os : List (ElementType × Cfg)} (h : Runs e f calls A os) :
    (∀ o ∈ os, o.1 = .Exit) → Told e output user doc sp len calls [(.Exit, none)] (os.map (Mach.obs sp)) := by
  induction h with
  | nil => intro _; exact .nil
  | cons _ _ ih => intro h; exact .exit (h _ (List.mem_cons_self ..)) (ih fun o ho => h o (List.mem_cons_of_mem _ ho))

theorem runs_told {len : Nat} {A : Cfg} {os : List (ElementType × Cfg)} (h : Runs e (strm doc) calls A os) :
    ∀ {ts : List Loose.Item}, Idle A → (∀ mask, LGoes e (strm doc) mask len A ts) → (∀ x ∈ ts, x.2 ≠ none → kindsOf x.1 ≠ []) →
    Told e A.output (userChar A) doc sp len calls ts (os.map (Mach.obs sp)) := by
  induction h with
  | nil => intro ts _ _ _; exact .nil
  | @cons mask c cs A B0 m r0 os h1 h2 ih =>
    intro ts hid hg hts
    have hs : Mach.Same A (clr c B0) := by
      obtain ⟨C, s1, s2⟩ := h1
      exact ((steps_same s1).trans (step_same s2)).trans (Mach.Same.clr c)
    have hid' := h1.idle.clr c
    rw [hs.1, hs.user] at ih
    rcases (hg mask).told hid hts h1 c with ⟨rfl, ⟨x1, rfl⟩, k1⟩ | ⟨rfl, k1, ty, t, as, ts', pre, post, rfl, k2, k3, k4, k5⟩ | ⟨k1, k2, x0, ts', rfl, k3, k4⟩
    · have hx1 : x1 = none := Decidable.byContradiction fun hn => hts (.Exit, x1) (List.mem_cons_self ..) hn rfl
      subst hx1
      have hx := runs_exit h2 (by rw [(clr_same c B0).2.1]; exact k1)
      exact .exit rfl (told_exits h2 hx)
    · refine .unknown k2 k3 rfl k1 k4.shows (ih hid' k5 ?_)
      intro x hx hn
      rcases List.mem_cons.1 hx with rfl | hx
      · exact hts (ty, some (t, as)) (List.mem_cons_self ..) nofun
      · exact hts x (List.mem_cons_of_mem _ hx) hn
    · refine .item k1 rfl (fun hb t r hx => ?_) (ih hid' k3 fun x hx => hts x (List.mem_cons_of_mem _ hx))
      exact ⟨(k4 hb t r hx).1, (k4 hb t r hx).2.shows⟩

theorem runs_document {os : List (ElementType × Cfg)} (hd : Spells e doc d) (hr : Runs e (strm doc) calls (Cfg.new output em addr) os) :
    Told e output (found em addr) doc sp (d.spell.length + 1) calls d.items (os.map (Mach.obs sp)) := by
  obtain ⟨h1, N, h2⟩ := hd
  have hN : N = d.spell.length + 1 := by
    have := congrArg List.length h2
    rw [List.length_map, chars_length, List.length_append] at this
    exact this.symm
  have ha : LAuto .START (view e (strm doc) 0 N) d.items := by unfold view; rw [← h2]; exact AcceptItems.auto_of_document h1
  rw [← hN]
  exact runs_told hr (.new _ _ _) (LGoes.new ha) ha.kinds

/-- **C114** — For any document of the grammar all calls return and say what the grammar tells, with unknown entities, too. -/
theorem C114_document (hb : ∀ b ∈ doc, b < 256) (hd : Spells e doc d) :
    ∃ N, ∀ n, N ≤ n → ∃ os s1, session n sp calls (oneScanner e output em addr doc) = (.ok os, s1) ∧
      Told e output (found em addr) doc sp (d.spell.length + 1) calls d.items os := by
  obtain ⟨N, h⟩ := C106_all (sp := sp) (output := output) (em := em) (addr := addr) (calls := calls) hb hd
  refine ⟨N, fun n hn => ?_⟩
  obtain ⟨os, s1, h1, -⟩ := h n hn
  refine ⟨os, s1, h1, ?_⟩
  obtain ⟨os', h2, rfl, -⟩ := session_ok (fun _ => oneSrc_wrap) (oneScanner_rel e output em addr doc (strm_lt doc hb)) h1
  exact runs_document hd h2

/-- The same for a document in chunks. -/
theorem C114_chunks {p : List Byte} {ps : List (List Byte)} (hc : doc = p ++ ps.flatten) (hb : ∀ b ∈ doc, b < 256)
    (hwf : e = .utf8 → Continued doc) {fresh : Bool} (hsp : sp = true → fresh = false) (hd : Spells e doc d) :
    ∃ N, ∀ n, N ≤ n → ∃ os s1, sessionFed n fresh sp calls ps (fedScanner e output em addr p ps) = (.ok os, s1) ∧
      Told e output (found em addr) doc sp (d.spell.length + 1) calls d.items os := by
  obtain ⟨N, h⟩ := C106_chunks_all (sp := sp) (output := output) (em := em) (addr := addr) (calls := calls) hc hb hwf hsp hd
  refine ⟨N, fun n hn => ?_⟩
  obtain ⟨os, s1, h1, -⟩ := h n hn
  refine ⟨os, s1, h1, ?_⟩
  rcases sessionFed_res hwf hsp (fedRel_new _ _ _ _ (!fresh) hc (strm_lt doc hb)) h1 with h2 | ⟨os', h2, h3⟩
  · cases h2
  · cases h3
    exact runs_document hd h2

/-- The place of the first unknown entity is determined by the text. -/
theorem C114_first {user : Option UChar} {t pre pre' post post' : List Byte} (h : FirstUnknown user t pre post) (h' : FirstUnknown user t pre' post') :
    pre = pre' ∧ post = post' := by
  obtain ⟨-, ⟨ns, h1, h2⟩, h3⟩ := h
  obtain ⟨-, ⟨ns', h1', h2'⟩, h3'⟩ := h'
  have k1 := h3 _ _ _ h1' h2'
  have k2 := h3' _ _ _ h1 h2
  have h59 : ∀ n : List Byte, UnknownName n → ∀ a ∈ n, a ≠ 59 := by
    rintro n hn a ha rfl
    have := hn.2.1 59 ha
    exact absurd this (by decide)
  rw [h1, List.append_assoc, List.append_assoc] at h1'
  obtain ⟨rfl, h4⟩ := List.append_inj h1' (by omega)
  have h4 := (List.cons.inj h4).2
  obtain ⟨rfl, h5⟩ := split_unique (P := fun a => a ≠ 59) (h59 _ h2) (h59 _ h2') (by intro b hb; cases hb; simp) (by intro b hb; cases hb; simp) h4
  exact ⟨rfl, (List.cons.inj h5).2⟩

/-- An error is told exactly where the texts asked for have unknown entities; so there is none if no text has one. -/
theorem C114_no_error {user : Option UChar} {len : Nat} {its : List Loose.Item} {os : List Obs}
    (h : Told e output user doc sp len calls its os) (ht : ∀ x ∈ its, x.1 ≠ .ErrorOccurred ∧ ∀ t r, x.2 = some (t, r) → ∀ pre post, ¬ FirstUnknown user t pre post) :
    ∀ o ∈ os, o.type ≠ .ErrorOccurred := by
  induction h with
  | nil => intro o ho; cases ho
  | exit h1 _ ih =>
    intro o ho
    rcases List.mem_cons.1 ho with rfl | ho
    · rw [h1]; nofun
    · exact ih ht o ho
  | item _ h2 _ _ ih =>
    intro o ho
    rcases List.mem_cons.1 ho with rfl | ho
    · rw [h2]; exact (ht _ (List.mem_cons_self ..)).1
    · exact ih (fun x hx => ht x (List.mem_cons_of_mem _ hx)) o ho
  | unknown _ h2 =>
    exact absurd h2 ((ht _ (List.mem_cons_self ..)).2 _ _ rfl _ _)

/-! ## Examples -/

/-- `<a>x&lt;&foo;y&bar;</a>` -/
def unknownExample : Loose.Document where
  lead := []
  content := some (.mark ⟨[], .open_ (codes "a") [] [] none, codes "x&lt;&foo;y&bar;"⟩, [⟨[], .close (codes "a") [], []⟩])

/-- The document meets the conditions of the theorems. -/
example : Spells .utf8 unknownExample.spell unknownExample := by
  refine ⟨⟨by unfold Gaps Gap; decide, ?_⟩, 24, by decide +kernel⟩
  intro c hc
  cases hc
  refine ⟨⟨by unfold Gaps Gap; decide, ⟨by unfold Loose.Chars; decide, ?_, nofun, nofun⟩, by unfold Loose.Chars; decide⟩, ?_⟩
  · unfold Loose.AttrsOk Gaps Gap; decide
  · simp only [List.forall_mem_cons]
    refine ⟨?_, nofun⟩
    exact ⟨by unfold Gaps Gap; decide, ⟨rfl, by unfold Loose.Chars; decide, by unfold Gaps Gap; decide⟩, by unfold Loose.Chars; decide⟩

/-- Its content has an unknown entity. -/
example : FirstUnknown none (codes "x&lt;&foo;y") (codes "x&lt;") (codes "y") := by
  refine ⟨rfl, ⟨codes "foo", by decide, by unfold UnknownName; decide +kernel⟩, ?_⟩
  intro pre ns post h hn
  by_cases hp : pre.length < 5
  · exfalso
    rcases pre with _ | ⟨a, _ | ⟨b, _ | ⟨c, _ | ⟨x, _ | ⟨y, pre⟩⟩⟩⟩⟩
    · cases h
    · have h : codes "lt;&foo;y" = ns ++ 59 :: post := by simp [codes] at h ⊢; exact h.2
      have h4 := split_unique (P := fun a => a ≠ 59) (t1 := codes "lt") (as1 := 59 :: codes "&foo;y") (t2 := ns) (as2 := 59 :: post) (by decide)
        (by rintro a ha rfl; exact absurd (hn.2.1 59 ha) (by decide)) (by intro b hb; cases hb; simp) (by intro b hb; cases hb; simp)
        (by rw [← h]; decide)
      rw [← h4.1] at hn
      exact hn.2.2.2 (by decide)
    · cases h
    · cases h
    · cases h
    · simp at hp; omega
  · simp at hp ⊢; exact hp

/-- The scanner tells of both unknown entities, with the text before, and goes on at the semicolons. -/
example : ((session 300 true (List.replicate 6 (0xFFFF, true)) (oneScanner .utf8 .utf8 none 0 unknownExample.spell)).1) =
    .ok ([(.OpenTag, "a", .Ok, 1), (.ErrorOccurred, "x<", .ErrUndefinedCharacterEntity, 3), (.ErrorOccurred, ";y", .ErrUndefinedCharacterEntity, 12),
      (.Content, ";", .Ok, 18), (.CloseTag, "a", .Ok, 21), (.Exit, "", .Ok, 24)].map
        fun x => ⟨x.1, codes x.2.1, x.2.2.1, some x.2.2.2⟩) := by
  decide +kernel

end TW
