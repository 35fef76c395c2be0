import Verif.Spec.CopyAny
import Verif.Proofs.Copy

/-!
# Copies of any documents
-/

namespace TW

open Spec

variable {new out : Enc}

/-- A string of the copying program. -/
def rendered (new : Enc) (cs : List UChar) : List Byte := cs.flatMap new.print

/-- Attributes of the copying program. -/
def renderedAttrs (new : Enc) (as : List (List UChar × List UChar)) : List (List Byte × List Byte) :=
  as.map fun a => (rendered new a.1, rendered new a.2)

/-- The nodes printed for parts, before other nodes. -/
def Spec.Parts.nodes (new : Enc) : Parts → Nodes → Nodes
  | .nil, tl => tl
  | .text cs ps, tl => .text (rendered new cs) (ps.nodes new tl)
  | .empty n as ps, tl => .elem (rendered new n) (renderedAttrs new as) .nil (ps.nodes new tl)
  | .elem n as ks ps, tl => .elem (rendered new n) (renderedAttrs new as) (ks.nodes new (.text [] .nil)) (ps.nodes new tl)

/-- The tree printed. -/
def Spec.Read.tree (new : Enc) (r : Read) : Tree where
  header := r.header.map fun h => (some (rendered new h.1), h.2.map (rendered new))
  doctype := r.doctype.map fun d => (rendered new d.1, d.2.map fun i => (i.1.map (rendered new), rendered new i.2))
  name := rendered new r.name
  attrs := renderedAttrs new r.attrs
  kids := match r.kids with | none => .nil | some ks => ks.nodes new (.text [] .nil)

/-! ## The calls -/

theorem copy_attrItems (d : Nat) (as : List (List UChar × List UChar)) (l : List (ElementType × List Byte)) :
    copyElements d ((attrItems as).map (told new) ++ l) = attrCalls (renderedAttrs new as) ++ copyElements d l := by
  induction as with
  | nil => rfl
  | cons a as ih =>
    unfold attrItems at ih ⊢
    rw [List.flatMap_cons, List.map_append, List.append_assoc]
    exact congrArg (fun x => PCall.attr (rendered new a.1) :: PCall.value (rendered new a.2) :: x) ih

theorem copy_parts {ps : Parts} : ∀ {d : Nat} {rest : List (ElementType × List Byte)} {tl : Nodes} {es : List PCall},
    copyElements (d + 1) rest = tl.calls ++ es →
    copyElements (d + 1) (ps.items.map (told new) ++ rest) = (ps.nodes new tl).calls ++ es := by
  induction ps with
  | nil => intro d rest tl es h; exact h
  | text cs ps ih =>
    intro d rest tl es h
    show (if d + 1 = 0 then _ else PCall.value (rendered new cs) :: copyElements (d + 1) (ps.items.map (told new) ++ rest)) = _
    rw [if_neg (by omega), ih h]
    rfl
  | empty n as ps ih =>
    intro d rest tl es h
    rw [Parts.items, List.map_cons, List.map_append, List.cons_append, List.append_assoc]
    show PCall.open_ (rendered new n) :: copyElements (d + 1 + 1) _ = _
    rw [copy_attrItems]
    show _ :: (_ ++ (PCall.close :: copyElements (d + 1) (ps.items.map (told new) ++ rest))) = _
    rw [ih h]
    simp [Parts.nodes, Nodes.calls]
  | elem n as ks ps ih1 ih2 =>
    intro d rest tl es h
    rw [Parts.items, List.map_cons, List.map_append, List.cons_append, List.append_assoc]
    show PCall.open_ (rendered new n) :: copyElements (d + 1 + 1) _ = _
    rw [copy_attrItems, List.map_append, List.append_assoc]
    have h2 : copyElements (d + 1 + 1) (List.map (told new) ((ElementType.CloseTag, n) :: ps.items) ++ rest) =
        (Nodes.text [] .nil).calls ++ (.close :: ((ps.nodes new tl).calls ++ es)) := by
      show PCall.value [] :: PCall.close :: copyElements (d + 1) (ps.items.map (told new) ++ rest) = _
      rw [ih2 h]
      rfl
    rw [ih1 h2]
    simp [Parts.nodes, Nodes.calls]

theorem copy_outer (ts : List (List UChar)) (l : List (ElementType × List Byte)) :
    copyElements 0 ((textItems ts).map (told new) ++ l) = copyElements 0 l := by
  induction ts with
  | nil => rfl
  | cons t ts ih => exact ih

theorem copy_before (ts : List (List UChar)) (l : List (ElementType × List Byte)) :
    copyDoctype ((textItems ts).map (told new) ++ l) = copyDoctype l := by
  induction ts with
  | nil => rfl
  | cons t ts ih => exact ih

theorem copy_read_root (r : Read) (ts : List (List UChar)) :
    copyElements 0 ((r.root.items ++ (textItems ts ++ [(ElementType.Exit, [])])).map (told new)) =
      (Nodes.elem (r.tree new).name (r.tree new).attrs (r.tree new).kids .nil).calls := by
  obtain ⟨h, b, dt, w, n, as, ks, z⟩ := r
  have he : copyElements 0 ((textItems ts ++ [(ElementType.Exit, [])]).map (told new)) = [] := by
    rw [List.map_append, copy_outer]
    rfl
  cases ks with
  | none =>
    show copyElements 0 (List.map (told new) ((.OpenTag, n) :: (attrItems as ++ [(.CloseTagIm, [])]) ++ _)) = _
    rw [List.cons_append, List.append_assoc, List.map_cons, List.map_append]
    show PCall.open_ (rendered new n) :: copyElements 1 _ = _
    rw [copy_attrItems]
    show _ :: (_ ++ (PCall.close :: copyElements 0 ((textItems ts ++ [(ElementType.Exit, [])]).map (told new)))) = _
    rw [he]
    simp [Nodes.calls, Read.tree]
  | some ks =>
    show copyElements 0 (List.map (told new) ((.OpenTag, n) :: (attrItems as ++ (ks.items ++ [(.CloseTag, n)])) ++ _)) = _
    rw [List.cons_append, List.append_assoc, List.append_assoc, List.map_cons, List.map_append]
    show PCall.open_ (rendered new n) :: copyElements 1 _ = _
    rw [copy_attrItems, List.map_append]
    have h2 : copyElements (0 + 1) (List.map (told new) ([(ElementType.CloseTag, n)] ++ (textItems ts ++ [(ElementType.Exit, [])]))) =
        (Nodes.text [] .nil).calls ++ [.close] := by
      show PCall.value [] :: PCall.close :: copyElements 0 ((textItems ts ++ [(ElementType.Exit, [])]).map (told new)) = _
      rw [he]
      rfl
    rw [copy_parts h2]
    simp [Nodes.calls, Read.tree]

/-- The calls of the copying program are those that print the tree. -/
theorem copy_read (r : Read) : copyDocument (r.items.map (told new)) = (r.tree new).calls := by
  have hr := copy_read_root (new := new) r r.behind
  have hb : ∀ ts : List (List UChar), copyElements 0 ((textItems ts ++ (r.root.items ++ (textItems r.behind ++ [(ElementType.Exit, [])]))).map (told new)) =
      (Nodes.elem (r.tree new).name (r.tree new).attrs (r.tree new).kids .nil).calls := by
    intro ts
    rw [List.map_append, copy_outer]
    exact hr
  have ho : ∃ x l, r.root.items = (.OpenTag, x) :: l := by
    obtain ⟨h, b, dt, w, n, as, ks, z⟩ := r
    cases ks <;> exact ⟨_, _, rfl⟩
  have hd : copyDoctype ((typeItems r.doctype ++ (textItems r.between ++ (r.root.items ++ (textItems r.behind ++ [(ElementType.Exit, [])])))).map (told new)) =
      doctypeCalls (r.tree new).doctype ++ (Nodes.elem (r.tree new).name (r.tree new).attrs (r.tree new).kids .nil).calls := by
    rw [← hb r.between]
    have : (r.tree new).doctype = r.doctype.map fun d => (rendered new d.1, d.2.map fun i => (i.1.map (rendered new), rendered new i.2)) := rfl
    rw [this]
    rcases r.doctype with _ | ⟨x, _ | ⟨_ | p, s⟩⟩
    · show copyDoctype (List.map (told new) (textItems r.between ++ _)) = _
      rw [hb, List.map_append, copy_before]
      obtain ⟨x, l, ho⟩ := ho
      rw [ho] at hr ⊢
      exact hr
    · rfl
    · rfl
    · rfl
  have hd' := (copy_before (new := new) r.before (List.map (told new) _)).trans hd
  rw [← List.map_append] at hd'
  rw [Tree.calls, List.append_assoc, ← hd', Read.items]
  have : (r.tree new).header = r.header.map fun h => (some (rendered new h.1), h.2.map (rendered new)) := rfl
  rw [this]
  rcases hh : r.header with _ | ⟨e, _ | s⟩
  · obtain ⟨x, l, ho⟩ := ho
    show copyDocument (List.map (told new) (textItems r.before ++ _)) = copyDoctype _
    rcases r.before with _ | ⟨b, bs⟩
    · rcases r.doctype with _ | ⟨y, _ | ⟨_ | p, s⟩⟩
      · rcases r.between with _ | ⟨b, bs⟩
        · rw [ho]
          rfl
        · rfl
      · rfl
      · rfl
      · rfl
    · rfl
  · rfl
  · rfl

/-! ## The items -/

/-- Items that tell the same wherever they are read. -/
def TellsSame (x y : List TItem) : Prop := ∀ d cs, core d cs x = core d cs y

theorem TellsSame.cons (i : TItem) {x y : List TItem} (h : TellsSame x y) : TellsSame (i :: x) (i :: y) := by
  intro d cs
  obtain ⟨t, z⟩ := i
  rw [core, core, h, h]

theorem TellsSame.append (l : List TItem) {x y : List TItem} (h : TellsSame x y) : TellsSame (l ++ x) (l ++ y) := by
  induction l with
  | nil => exact h
  | cons i l ih => exact ih.cons i

theorem TellsSame.nothing (x : List TItem) : TellsSame ((.Content, []) :: x) x := by
  intro d cs
  rw [core, if_pos rfl]
  split <;> simp

theorem TellsSame.both (a b : List UChar) (x : List TItem) : TellsSame ((.Content, a) :: (.Content, b) :: x) ((.Content, a ++ b) :: x) := by
  intro d cs
  by_cases h : d = 0
  · simp [core, h]
  · simp [core, h]

theorem TellsSame.trans {x y z : List TItem} (h : TellsSame x y) (h' : TellsSame y z) : TellsSame x z := fun d cs => (h d cs).trans (h' d cs)

theorem TellsSame.refl (x : List TItem) : TellsSame x x := fun _ _ => rfl

theorem TellsSame.symm {x y : List TItem} (h : TellsSame x y) : TellsSame y x := fun d cs => (h d cs).symm

/-- Events as items. -/
def flat (es : List Event) : List TItem := es.map fun
  | .item t x => (t, x)
  | .text x => (.Content, x)

theorem joined_tells (es : List Event) : ∀ cs, TellsSame (joined cs es) ((.Content, cs) :: flat es) := by
  have hs : ∀ (cs : List UChar) (x : List TItem), TellsSame ((if cs = [] then [] else [(.Content, cs)]) ++ x) ((.Content, cs) :: x) := by
    intro cs x
    by_cases h : cs = []
    · rw [if_pos h, h]
      exact (TellsSame.nothing x).symm
    · rw [if_neg h]
      exact TellsSame.refl _
  induction es with
  | nil =>
    intro cs
    have := hs cs []
    rwa [List.append_nil] at this
  | cons e es ih =>
    intro cs
    cases e with
    | item t x => exact (hs cs _).trans ((((ih []).trans (TellsSame.nothing _)).cons (t, x)).cons (.Content, cs))
    | text x => exact (ih (cs ++ x)).trans (TellsSame.both cs x _).symm

theorem flat_append (a b : List Event) : flat (a ++ b) = flat a ++ flat b := List.map_append

theorem flat_attrs {as : List (List UChar × List UChar)} (h : ∀ a ∈ as, decode new (rendered new a.1) = a.1 ∧ decode new (rendered new a.2) = a.2) :
    flat (attrEvents new (renderedAttrs new as)) = attrItems as := by
  induction as with
  | nil => rfl
  | cons a as ih =>
    obtain ⟨h1, h2⟩ := h a (List.mem_cons_self ..)
    have hi := ih fun a ha => h a (List.mem_cons_of_mem _ ha)
    show (ElementType.TagAttribName, decode new (rendered new a.1)) :: (ElementType.TagAttribValue, decode new (rendered new a.2)) ::
      flat (attrEvents new (renderedAttrs new as)) = _
    rw [h1, h2, hi]
    rfl

theorem rendered_eq (hn : PageOk new) {cs : List UChar} (h : CharsOk new out cs) : decode new (rendered new cs) = cs :=
  decode_print hn fun c hc => (h.1 c hc).1

theorem rendered_attrs (hn : PageOk new) {as : List (List UChar × List UChar)} (h : AttribsOk new out as) :
    flat (attrEvents new (renderedAttrs new as)) = attrItems as :=
  flat_attrs fun a ha => ⟨rendered_eq hn (h a ha).1.1, rendered_eq hn (h a ha).2⟩

theorem nodes_isNil {ps : Parts} {tl : Nodes} (h : tl.isNil = false) : (ps.nodes new tl).isNil = false := by
  cases ps with
  | nil => exact h
  | text => rfl
  | empty => rfl
  | elem => rfl

theorem parts_tells (hn : PageOk new) {ps : Parts} : ∀ {tl : Nodes} {es : List Event} {y : List TItem}, ps.Ok new out →
    TellsSame (flat (tl.events new ++ es)) y → TellsSame (flat ((ps.nodes new tl).events new ++ es)) (ps.items ++ y) := by
  induction ps with
  | nil => intro tl es y _ h; exact h
  | text cs ps ih =>
    intro tl es y ho h
    show TellsSame ((.Content, decode new (rendered new cs)) :: flat ((ps.nodes new tl).events new ++ es)) ((.Content, cs) :: (ps.items ++ y))
    rw [rendered_eq hn ho.1.1]
    exact (ih ho.2 h).cons _
  | empty n as ps ih =>
    intro tl es y ho h
    rw [Parts.nodes, Nodes.events, if_pos (by rfl), List.append_assoc, List.append_assoc, flat_append]
    show TellsSame ((.OpenTag, decode new (rendered new n)) :: flat (attrEvents new (renderedAttrs new as)) ++
      (.CloseTagIm, []) :: flat ((ps.nodes new tl).events new ++ es)) _
    rw [rendered_eq hn ho.1.1, rendered_attrs hn ho.2.1, Parts.items]
    rw [show (ElementType.OpenTag, n) :: (attrItems as ++ (ElementType.CloseTagIm, []) :: ps.items) ++ y =
      (ElementType.OpenTag, n) :: attrItems as ++ ((ElementType.CloseTagIm, []) :: (ps.items ++ y)) by simp]
    exact ((ih ho.2.2 h).cons _).append _
  | elem n as ks ps ih1 ih2 =>
    intro tl es y ho h
    rw [Parts.nodes, Nodes.events, nodes_isNil rfl, if_neg (by decide), List.append_assoc, List.append_assoc, flat_append]
    show TellsSame ((.OpenTag, decode new (rendered new n)) :: flat (attrEvents new (renderedAttrs new as)) ++
      flat (((ks.nodes new (.text [] .nil)).events new ++ [.item .CloseTag (decode new (rendered new n))]) ++ ((ps.nodes new tl).events new ++ es))) _
    rw [rendered_eq hn ho.1.1, rendered_attrs hn ho.2.1, Parts.items, List.append_assoc]
    rw [show (ElementType.OpenTag, n) :: (attrItems as ++ (ks.items ++ (ElementType.CloseTag, n) :: ps.items)) ++ y =
      (ElementType.OpenTag, n) :: attrItems as ++ (ks.items ++ ((ElementType.CloseTag, n) :: (ps.items ++ y))) by simp]
    refine (ih1 ho.2.2.1 ?_).append _
    refine TellsSame.trans ?_ ((ih2 ho.2.2.2 h).cons (.CloseTag, n))
    show TellsSame ((.Content, decode new []) :: (.CloseTag, n) :: flat ((ps.nodes new tl).events new ++ es)) _
    rw [decode_nil]
    exact TellsSame.nothing _

theorem rendered_string (hn : PageOk new) {cs : List UChar} (h : CharsOk new out cs) : StringOk (rendered new cs) :=
  ⟨fun b hb => by
    obtain ⟨c, hc, hb⟩ := List.mem_flatMap.1 hb
    exact print_lt new hn c (h.1 c hc).1.2.1 (h.1 c hc).1.2.2 b hb, h.2⟩

theorem rendered_name (hn : PageOk new) {cs : List UChar} (h : WordOk new out cs) : NameOk new out (rendered new cs) := by
  unfold NameOk
  rw [rendered_eq hn h.1]
  exact ⟨h.2.1, fun c hc => ⟨(h.1.1 c hc).2, h.2.2 c hc⟩⟩

theorem rendered_attrsOk (hn : PageOk new) {as : List (List UChar × List UChar)} (h : AttribsOk new out as) :
    AttrsOk new out (renderedAttrs new as) := by
  intro a ha
  obtain ⟨b, hb, rfl⟩ := List.mem_map.1 ha
  obtain ⟨h1, h2⟩ := h b hb
  refine ⟨rendered_string hn h1.1, rendered_name hn h1, rendered_string hn h2, ?_⟩
  rw [rendered_eq hn h2]
  exact fun c hc => (h2.1 c hc).2

theorem parts_ok (hn : PageOk new) {ps : Parts} : ∀ {tl : Nodes}, ps.Ok new out → tl.Ok new out → (ps.nodes new tl).Ok new out := by
  have hnil : StringOk ([] : List Byte) := ⟨(fun b hb => nomatch hb), by decide⟩
  have hempty : (Nodes.text [] .nil).Ok new out := ⟨⟨hnil, by rw [decode_nil]; exact fun c hc => nomatch hc⟩, trivial⟩
  induction ps with
  | nil => intro tl _ h; exact h
  | text cs ps ih =>
    intro tl ho h
    refine ⟨⟨rendered_string hn ho.1.1, ?_⟩, ih ho.2 h⟩
    rw [rendered_eq hn ho.1.1]
    exact fun c hc => ⟨(ho.1.1.1 c hc).2, ho.1.2 c hc⟩
  | empty n as ps ih =>
    intro tl ho h
    exact ⟨rendered_string hn ho.1.1, rendered_name hn ho.1, rendered_attrsOk hn ho.2.1, trivial, ih ho.2.2 h⟩
  | elem n as ks ps ih1 ih2 =>
    intro tl ho h
    exact ⟨rendered_string hn ho.1.1, rendered_name hn ho.1, rendered_attrsOk hn ho.2.1, ih1 ho.2.2.1 hempty, ih2 ho.2.2.2 h⟩

theorem root_nodes (r : Read) : r.root.nodes new .nil = Nodes.elem (r.tree new).name (r.tree new).attrs (r.tree new).kids .nil := by
  obtain ⟨h, b, dt, w, n, as, ks, z⟩ := r
  cases ks <;> rfl

theorem rendered_nul (ha : AsciiBased new) {cs : List UChar} (h : CharsOk new out cs) :
    untilNul (rendered new cs) = rendered new cs := untilNul_print ha fun c hc => (h.1 c hc).1

theorem rendered_plain (hn : PageOk new) (ha : AsciiBased new) {cs : List UChar} (h : LiteralOk new out cs) : PlainOk new out (rendered new cs) := by
  refine ⟨rendered_string hn h.1, ?_⟩
  rw [rendered_nul ha h.1, rendered_eq hn h.1]
  exact fun c hc => ⟨(h.1.1 c hc).2, h.2 c hc⟩

theorem read_ok (hn : PageOk new) {r : Read} (h : r.Ok new out) : (r.tree new).Ok new out := by
  obtain ⟨h1, h2, h3⟩ := h
  refine ⟨?_, ?_, ?_⟩
  · show match r.header.map fun h => (some (rendered new h.1), h.2.map (rendered new)) with | none => True | some (e, s) => _
    cases hh : r.header with
    | none => trivial
    | some x =>
      obtain ⟨a, b, c⟩ := h1 x hh
      refine ⟨a, ?_, ?_⟩
      · intro y hy
        cases hy
        exact rendered_plain hn a b
      · intro y hy
        obtain ⟨z, hz, rfl⟩ := Option.map_eq_some_iff.1 hy
        exact rendered_plain hn a (c z hz)
  · show match r.doctype.map fun d => (rendered new d.1, d.2.map fun i => (i.1.map (rendered new), rendered new i.2)) with
      | none => True | some (e, s) => _
    cases hh : r.doctype with
    | none => trivial
    | some x =>
      obtain ⟨a, b, c⟩ := h2 x hh
      refine ⟨a, rendered_string hn b.1, ?_, ?_⟩
      · rw [rendered_nul a b.1]
        exact rendered_name hn b
      · intro y hy
        obtain ⟨z, hz, rfl⟩ := Option.map_eq_some_iff.1 hy
        refine ⟨?_, rendered_plain hn a (c z hz).2⟩
        intro w hw
        obtain ⟨v, hv, rfl⟩ := Option.map_eq_some_iff.1 hw
        exact rendered_plain hn a ((c z hz).1 v hv)
  · rw [← root_nodes]
    exact parts_ok hn h3 trivial

theorem outer_core (ts : List (List UChar)) (l : List TItem) : core 0 [] (textItems ts ++ l) = core 0 [] l := by
  induction ts with
  | nil => rfl
  | cons t ts ih => exact ih

theorem core_append {l a b : List TItem} (hl : ∀ i ∈ l, i.1 ≠ .Content ∧ i.1 ≠ .OpenTag ∧ i.1 ≠ .CloseTag ∧ i.1 ≠ .CloseTagIm)
    (h : core 0 [] a = core 0 [] b) : core 0 [] (l ++ a) = core 0 [] (l ++ b) := by
  induction l with
  | nil => exact h
  | cons i l ih =>
    obtain ⟨t, x⟩ := i
    have hi := ih fun i hi => hl i (List.mem_cons_of_mem _ hi)
    obtain ⟨h1, h2, h3, h4⟩ := hl _ (List.mem_cons_self ..)
    have hd : depth t 0 = 0 := by cases t <;> first | rfl | exact absurd rfl h2
    rw [List.cons_append, List.cons_append, core, core, if_neg h1, if_neg h1, hd, hi]

theorem attr_core {d : Nat} {x y : List TItem} (h : ∀ cs, core d cs x = core d cs y) (as : List (List UChar × List UChar)) :
    ∀ cs, core d cs (attrItems as ++ x) = core d cs (attrItems as ++ y) := by
  induction as with
  | nil => exact h
  | cons a as ih =>
    intro cs
    show shown cs ++ (ElementType.TagAttribName, a.1) :: (shown [] ++ (ElementType.TagAttribValue, a.2) :: core d [] (attrItems as ++ x)) =
      shown cs ++ (ElementType.TagAttribName, a.1) :: (shown [] ++ (ElementType.TagAttribValue, a.2) :: core d [] (attrItems as ++ y))
    rw [ih]

theorem parts_core {ps : Parts} : ∀ {d : Nat} {x y : List TItem}, (∀ cs, core (d + 1) cs x = core (d + 1) cs y) →
    ∀ cs, core (d + 1) cs (ps.items ++ x) = core (d + 1) cs (ps.items ++ y) := by
  induction ps with
  | nil => intro d x y h; exact h
  | text z ps ih =>
    intro d x y h cs
    exact ih h (if d + 1 = 0 then cs else cs ++ z)
  | empty n as ps ih =>
    intro d x y h cs
    simp only [Parts.items, List.cons_append, List.append_assoc]
    refine congrArg (fun l => shown cs ++ (ElementType.OpenTag, n) :: l) (attr_core (fun cs => ?_) as [])
    exact congrArg (fun l => shown cs ++ (ElementType.CloseTagIm, []) :: l) (ih h [])
  | elem n as ks ps ih1 ih2 =>
    intro d x y h cs
    simp only [Parts.items, List.cons_append, List.append_assoc]
    refine congrArg (fun l => shown cs ++ (ElementType.OpenTag, n) :: l) (attr_core (ih1 fun cs => ?_) as [])
    exact congrArg (fun l => shown cs ++ (ElementType.CloseTag, n) :: l) (ih2 h [])

theorem root_core (r : Read) {x y : List TItem} (h : core 0 [] x = core 0 [] y) : core 0 [] (r.root.items ++ x) = core 0 [] (r.root.items ++ y) := by
  obtain ⟨hd, b, dt, w, n, as, ks, z⟩ := r
  cases ks with
  | none =>
    show core 0 [] ((.OpenTag, n) :: (attrItems as ++ [(.CloseTagIm, [])]) ++ x) = core 0 [] ((.OpenTag, n) :: (attrItems as ++ [(.CloseTagIm, [])]) ++ y)
    simp only [List.cons_append, List.append_assoc, List.nil_append]
    refine congrArg (fun l => shown [] ++ (ElementType.OpenTag, n) :: l) (attr_core (fun cs => ?_) as [])
    exact congrArg (fun l => shown cs ++ (ElementType.CloseTagIm, []) :: l) h
  | some ks =>
    show core 0 [] ((.OpenTag, n) :: (attrItems as ++ (ks.items ++ [(.CloseTag, n)])) ++ x) =
      core 0 [] ((.OpenTag, n) :: (attrItems as ++ (ks.items ++ [(.CloseTag, n)])) ++ y)
    simp only [List.cons_append, List.append_assoc, List.nil_append]
    refine congrArg (fun l => shown [] ++ (ElementType.OpenTag, n) :: l) (attr_core (parts_core fun cs => ?_) as [])
    exact congrArg (fun l => shown cs ++ (ElementType.CloseTag, n) :: l) h

/-- What is read of the copy tells the same. -/
theorem read_core (hn : PageOk new) {r : Read} (h : r.Ok new out) : core 0 [] ((r.tree new).items new) = core 0 [] r.items := by
  obtain ⟨h1, h2, h3⟩ := h
  have hh : (r.tree new).headerItems new = headItems r.header := by
    unfold Tree.headerItems headItems
    rw [show (r.tree new).header = r.header.map fun h => (some (rendered new h.1), h.2.map (rendered new)) from rfl]
    rcases hh : r.header with _ | ⟨e, _ | s⟩
    · rfl
    · obtain ⟨a, b, c⟩ := h1 _ hh
      simp [rendered_nul a b.1, rendered_eq hn b.1]
    · obtain ⟨a, b, c⟩ := h1 _ hh
      have c := c s rfl
      simp [rendered_nul a b.1, rendered_eq hn b.1, rendered_nul a c.1, rendered_eq hn c.1]
  have hd : (r.tree new).doctypeItems new = typeItems r.doctype := by
    unfold Tree.doctypeItems typeItems
    rw [show (r.tree new).doctype = r.doctype.map fun d => (rendered new d.1, d.2.map fun i => (i.1.map (rendered new), rendered new i.2)) from rfl]
    rcases hh : r.doctype with _ | ⟨x, _ | ⟨_ | p, s⟩⟩
    · rfl
    · obtain ⟨a, b, c⟩ := h2 _ hh
      simp [rendered_nul a b.1, rendered_eq hn b.1]
    · obtain ⟨a, b, c⟩ := h2 _ hh
      have c := (c _ rfl).2
      simp [rendered_nul a b.1, rendered_eq hn b.1, rendered_nul a c.1, rendered_eq hn c.1]
    · obtain ⟨a, b, c⟩ := h2 _ hh
      have c' := (c _ rfl).1 p rfl
      have c := (c _ rfl).2
      simp [rendered_nul a b.1, rendered_eq hn b.1, rendered_nul a c.1, rendered_eq hn c.1, rendered_nul a c'.1, rendered_eq hn c'.1]
  have hhd : ∀ o, ∀ i ∈ headItems o, i.1 ≠ .Content ∧ i.1 ≠ .OpenTag ∧ i.1 ≠ .CloseTag ∧ i.1 ≠ .CloseTagIm := by
    intro o i hi
    rcases o with _ | ⟨e, _ | s⟩ <;> simp [headItems] at hi
    · rcases hi with rfl | rfl | rfl | rfl | rfl | rfl <;> simp
    · rcases hi with rfl | rfl | rfl | rfl | rfl | rfl | rfl | rfl <;> simp
  have hdt : ∀ o, ∀ i ∈ typeItems o, i.1 ≠ .Content ∧ i.1 ≠ .OpenTag ∧ i.1 ≠ .CloseTag ∧ i.1 ≠ .CloseTagIm := by
    intro o i hi
    rcases o with _ | ⟨x, _ | ⟨_ | p, s⟩⟩ <;> simp [typeItems] at hi
    · rcases hi with rfl | rfl | rfl <;> simp
    · rcases hi with rfl | rfl | rfl | rfl | rfl <;> simp
    · rcases hi with rfl | rfl | rfl | rfl | rfl | rfl <;> simp
  rw [Tree.items, hh, hd, List.append_assoc, List.append_assoc, Read.items]
  refine core_append (hhd _) ?_
  rw [outer_core]
  refine core_append (hdt _) ?_
  rw [outer_core, ← joined_end, ← root_nodes]
  have e1 := joined_tells ((r.root.nodes new .nil).events new ++ [.text [10], .item .Exit []]) [] 0 []
  rw [e1, TellsSame.nothing _ 0 []]
  have e2 := parts_tells (tl := .nil) (es := [.text [10], .item .Exit []]) hn h3 (TellsSame.refl _) 0 []
  rw [e2]
  refine root_core r ?_
  rw [outer_core]
  rfl

end TW
