import Verif.Proofs.ExamplesSelect
import Verif.Props.Examples

/-!
# Property C97: the example program with the selector
-/

namespace TW

open Spec Spec.Path TW.Path Scanner

variable {e de : Enc} {em : Option (List (Nat × UChar))} {addr : Nat} {doc : List Byte}

/-- The program for any queries that do not ask for close tags. -/
theorem select_document (hde : PageOk de) {d : Document} (hd : d.Ok de) (hl : (d.bytes de).length + 24 ≤ 2 ^ 32)
    {calls : List (List PElem.Call)} {nb : Nat} {rss : List (List Int)} (hs : Selects e nb calls (docItems e d) rss)
    (hc : ∀ p ∈ (docItems e d).zip rss, p.1.1 = .CloseTag ∨ p.1.1 = .CloseTagIm → p.2 = []) :
    ∃ N, ∀ n k, N ≤ n → d.items.length ≤ k →
      selectAll e calls nb n k (cstrScanner de e em addr (d.bytes de)) = (picked ((docItems e d).dropLast.zip rss), .returned true) := by
  obtain ⟨a, sel, h1, h2, N, sel', h3⟩ := hs
  obtain ⟨N', h⟩ := C66_document (output := e) (em := em) (addr := addr) hde hd (calls := asks d.items.length) (by simp [asks]) (asks_all _)
  obtain ⟨s, h⟩ := h N' (Nat.le_refl _)
  obtain ⟨N', h4⟩ := C81_cstring (doc := d.bytes de) ((Mach.AllW.document hde hd).bytes hde) hl h
  obtain ⟨i1, i2⟩ := document_end d
  have hdoc : docItems e d = (docItems e d).dropLast ++ [(.Exit, [])] := by
    unfold docItems
    rw [← List.map_dropLast]
    conv => lhs; rw [i1]
    rw [List.map_append]
    rfl
  refine ⟨max N N', fun n k hn hk => ?_⟩
  obtain ⟨s1, h5⟩ := h4 n (by omega)
  have h6 := h3 n (by omega)
  rw [hdoc] at h6
  obtain ⟨rs1, s2, rs2, h7, rfl, h8⟩ := feed_append _ _ h6
  have hz : ∀ (l : List Item) (rs1 : List (List Int)), l.length = rs1.length → l.zip (rs1 ++ rs2) = l.zip rs1 := by
    intro l
    induction l with
    | nil => intro _ _; rfl
    | cons x l ih =>
      intro rs1 h
      cases rs1 with
      | nil => simp at h
      | cons y ys => simp [ih ys (by simpa using h)]
  have := select_loop (s := cstrScanner de e em addr (d.bytes de)) (docItems e d).dropLast d.items.length k (x := []) (r := []) h5 (by
      rw [List.map_map]
      exact hdoc) (by
      intro i hi
      unfold docItems at hi
      rw [← List.map_dropLast] at hi
      obtain ⟨j, hj, rfl⟩ := List.mem_map.1 hi
      exact i2 j hj) h7 (by
      intro p hp
      refine hc p ?_
      rw [hdoc, List.zip_append h8.symm]
      exact List.mem_append_left _ hp) (by
      have : 0 < d.items.length := by rw [i1]; simp
      simp [docItems]
      omega)
  unfold selectAll
  rw [h1]
  simp only [h2]
  rw [hz _ _ h8.symm]
  exact this

/-- The queries of the program. -/
def addressQueries : List Query :=
  [⟨[⟨⟨false, some (codes "address")⟩, []⟩], .attribute false (some (codes "name")), 1⟩,
   ⟨[⟨⟨false, some (codes "address")⟩, []⟩], .attribute false (some (codes "street")), 2⟩]

theorem address_calls : addressQueries.map Query.calls = addressCalls := by decide +kernel

theorem ascii_name (he : ByteSet e) {s : List UChar} (h0 : s ≠ []) (h1 : s.length ≤ 1024)
    (h2 : ∀ c ∈ s, 97 ≤ c ∧ c ≤ 122) : Name e s := by
  have hp : ∀ p, e = .isolatin p → p ∈ [1, 2, 3, 4, 5, 6, 7, 8, 9] := by
    rintro p rfl
    rcases he with h | ⟨q, h, h3, h4⟩
    · cases h
    · cases h
      simp only [List.mem_cons, List.not_mem_nil, or_false]
      omega
  refine ⟨h0, h1, s, ?_, ?_⟩
  · have : ∀ c ∈ s, e.print c = [c] := by
      intro c hc
      have hr := h2 c hc
      rw [(C21_carriers e c (by omega) (by omega) hp).1]
      rcases he with rfl | ⟨q, rfl, -, -⟩ <;> rfl
    clear h0 h1 h2
    induction s with
    | nil => rfl
    | cons c s ih => rw [List.flatMap_cons, this c List.mem_cons_self, ← ih fun x hx => this x (List.mem_cons_of_mem _ hx)]; rfl
  · intro c hc
    have hr := h2 c hc
    refine ⟨by omega, ascii_direct (byteSet_page he).1 (by omega) (by omega), by omega, ?_⟩
    have : ∀ c : _root_.Fin 26, isTagC (controlCharMap (97 + c.val)) = true := by decide +kernel
    rw [if_pos (by omega)]
    have := this ⟨c - 97, by omega⟩
    rwa [show 97 + (c - 97) = c by omega] at this

theorem address_ok (he : ByteSet e) : ∀ x ∈ addressQueries, x.Ok e := by
  intro x hx
  simp only [addressQueries, List.mem_cons, List.not_mem_nil, or_false] at hx
  have h0 : Name e (codes "address") := ascii_name he (by decide) (by decide) (by decide)
  have h1 : Name e (codes "name") := ascii_name he (by decide) (by decide) (by decide)
  have h2 : Name e (codes "street") := ascii_name he (by decide) (by decide) (by decide)
  generalize codes "address" = a at *
  generalize codes "name" = b at *
  generalize codes "street" = c at *
  rcases hx with rfl | rfl
  · refine ⟨(fun h => nomatch h), fun s hs => ?_, fun d name h nm hn => ?_⟩
    · rw [List.mem_singleton.1 hs]
      exact ⟨fun nm h => by cases h; exact h0, fun _ h => nomatch h⟩
    · cases h; cases hn; exact h1
  · refine ⟨(fun h => nomatch h), fun s hs => ?_, fun d name h nm hn => ?_⟩
    · rw [List.mem_singleton.1 hs]
      exact ⟨fun nm h => by cases h; exact h0, fun _ h => nomatch h⟩
    · cases h; cases hn; exact h2

theorem address_routes (path : List Open) : routes [⟨⟨false, some (codes "address")⟩, []⟩] path =
    if path.map (·.name) = [codes "address"] then 1 else 0 := by
  match path with
  | [] => rfl
  | [x] => by_cases h : x.name = codes "address" <;> simp [routes, choices, Step.accepts, h, eq_comm (a := codes "address")]
  | x :: y :: path => simp [routes, choices]

theorem grown_names (path : List Open) (prev : Option Item) (it : Item) : (grown path prev it).map (·.name) = after (path.map (·.name)) it := by
  obtain ⟨t, x⟩ := it
  by_cases ht : t = .TagAttribValue
  · subst ht
    rcases prev with _ | ⟨u, nm⟩
    · rfl
    · by_cases hu : u = .TagAttribName
      · subst hu
        unfold grown after
        simp only
        rcases hy : path.getLast? with _ | y
        · rfl
        · obtain ⟨l, rfl⟩ := List.getLast?_eq_some_iff.1 hy
          simp
      · cases u <;> first | rfl | exact absurd rfl hu
  · cases t <;> first | exact absurd rfl ht | simp [grown, after]

theorem count_eq_replicate {rs : List Int} {a : Int} {k : Nat} (h : ∀ ty, rs.count ty = if ty = a then k else 0) : rs = List.replicate k a := by
  have h1 : ∀ b ∈ rs, b = a := by
    intro b hb
    have := List.count_pos_iff.2 hb
    rw [h b] at this
    by_cases hba : b = a
    · exact hba
    · rw [if_neg hba] at this; omega
  have h2 := List.eq_replicate_iff.2 ⟨rfl, h1⟩
  have h3 := h a
  rw [if_pos rfl, h2, List.count_replicate_self] at h3
  rw [h2, h3]

/-- What the results of an item are. -/
theorem address_results {path : List Open} {prev : Option Item} {it : Item} {rs : List Int} (h0 : (0 : Int) ∉ rs)
    (h : ∀ ty : Int, ty ≠ 0 → rs.count ty = ((addressQueries.filter (·.type = ty)).map fun x => x.answers path prev it).sum) :
    rs = if path.map (·.name) = [codes "address"] ∧ it.1 = .TagAttribValue then
        if prev = some (.TagAttribName, codes "name") then [1] else if prev = some (.TagAttribName, codes "street") then [2] else []
      else [] := by
  have hne : codes "name" ≠ codes "street" := by decide
  have hc : ∀ ty : Int, rs.count ty =
      if path.map (·.name) = [codes "address"] ∧ it.1 = .TagAttribValue then
        if prev = some (.TagAttribName, codes "name") then (if ty = 1 then 1 else 0)
        else if prev = some (.TagAttribName, codes "street") then (if ty = 2 then 1 else 0) else 0
      else 0 := by
    intro ty
    by_cases hty : ty = 0
    · subst hty
      rw [List.count_eq_zero.2 h0]
      split
      · split
        · rfl
        · split <;> rfl
      · rfl
    · rw [h ty hty]
      have ha : ∀ nm : List Byte, ∀ t : Int, Query.answers ⟨[⟨⟨false, some (codes "address")⟩, []⟩], .attribute false (some nm), t⟩ path prev it =
          if (path.map (·.name) = [codes "address"] ∧ it.1 = .TagAttribValue) ∧ prev = some (.TagAttribName, nm) then 1 else 0 := by
        intro nm t
        obtain ⟨u, x⟩ := it
        by_cases hu : u = .TagAttribValue
        · subst hu
          rcases prev with _ | ⟨v, y⟩
          · simp [Query.answers]
          · by_cases hv : v = .TagAttribName
            · subst hv
              simp only [Query.answers, reaches, address_routes, Step.accepts, Bool.false_eq_true, if_false, Nat.add_zero, and_true]
              by_cases h1 : path.map (·.name) = [codes "address"] <;> by_cases h2 : y = nm <;> simp [h1, h2, eq_comm (a := nm)]
            · have : Query.answers ⟨[⟨⟨false, some (codes "address")⟩, []⟩], .attribute false (some nm), t⟩ path (some (v, y)) (.TagAttribValue, x) = 0 := by
                cases v <;> first | rfl | exact absurd rfl hv
              rw [this, if_neg]
              rintro ⟨-, h⟩
              cases h
              exact hv rfl
        · have : Query.answers ⟨[⟨⟨false, some (codes "address")⟩, []⟩], .attribute false (some nm), t⟩ path prev (u, x) = 0 := by
            cases u <;> first | rfl | exact absurd rfl hu
          rw [this, if_neg]
          rintro ⟨⟨-, h⟩, -⟩
          exact hu h
      unfold addressQueries
      by_cases h1 : ty = 1
      · subst h1
        simp only [List.filter_cons, List.filter_nil, decide_true, if_true, show decide ((2 : Int) = 1) = false from rfl, Bool.false_eq_true, if_false,
          List.map_cons, List.map_nil, List.sum_cons, List.sum_nil, Nat.add_zero, ha, show ((1 : Int) = 2) = False by decide]
        by_cases g1 : path.map (·.name) = [codes "address"] ∧ it.1 = .TagAttribValue <;>
          by_cases g2 : prev = some (.TagAttribName, codes "name") <;> simp only [g1, g2, and_self, and_false, false_and, if_true, if_false, ite_self]
      · by_cases h2 : ty = 2
        · subst h2
          simp only [List.filter_cons, List.filter_nil, decide_true, if_true, show decide ((1 : Int) = 2) = false from rfl, Bool.false_eq_true, if_false,
            List.map_cons, List.map_nil, List.sum_cons, List.sum_nil, Nat.add_zero, ha, show ((2 : Int) = 1) = False by decide]
          by_cases g1 : path.map (·.name) = [codes "address"] ∧ it.1 = .TagAttribValue
          · by_cases g2 : prev = some (.TagAttribName, codes "name")
            · rw [if_neg, if_pos g1, if_pos g2]
              rintro ⟨-, h⟩
              rw [g2] at h
              injection h with h
              injection h with _ h
              exact hne h
            · by_cases g3 : prev = some (.TagAttribName, codes "street") <;> simp [g1, g2, g3, Ne.symm hne]
          · rw [if_neg fun h => g1 h.1, if_neg g1]
        · simp only [List.filter_cons, List.filter_nil, decide_eq_false (show ¬(1 : Int) = ty from fun h => h1 h.symm),
            decide_eq_false (show ¬(2 : Int) = ty from fun h => h2 h.symm), Bool.false_eq_true, if_false, List.map_nil, List.sum_nil, h1, h2]
          simp
  by_cases g1 : path.map (·.name) = [codes "address"] ∧ it.1 = .TagAttribValue
  · simp only [if_pos g1] at hc ⊢
    by_cases g2 : prev = some (.TagAttribName, codes "name")
    · simp only [if_pos g2] at hc ⊢
      exact count_eq_replicate hc
    · simp only [if_neg g2] at hc ⊢
      by_cases g3 : prev = some (.TagAttribName, codes "street")
      · simp only [if_pos g3] at hc ⊢
        exact count_eq_replicate hc
      · simp only [if_neg g3] at hc ⊢
        exact count_eq_replicate (a := 0) (k := 0) (by simpa using hc)
  · simp only [if_neg g1] at hc ⊢
    exact count_eq_replicate (a := 0) (k := 0) (by simpa using hc)

theorem feed_nonzero {n : Nat} : ∀ (l : List Item) {s s' : Sel} {rss : List (List Int)}, Sel.feed n l s = (.ok rss, s') → ∀ rs ∈ rss, (0 : Int) ∉ rs
  | [], s, s', rss, h => by
    obtain ⟨rfl, -⟩ := M.pure_eq h
    exact fun _ h => nomatch h
  | (t, x) :: l, s, s', rss, h => by
    rw [Sel.feed] at h
    obtain ⟨a, s1, h1, h⟩ := M.bind_eq h
    obtain ⟨as, s2, h2, h⟩ := M.bind_eq h
    obtain ⟨rfl, -⟩ := M.pure_eq h
    intro rs hr
    rcases List.mem_cons.1 hr with rfl | hr
    · exact push_nonzero h1
    · exact feed_nonzero l h2 rs hr

/-- The lines for the results. -/
theorem address_lines : ∀ (items : List Item) (path : List Open) (prev : Option Item) (rss : List (List Int)),
    (∀ rs ∈ rss, (0 : Int) ∉ rs) → (∀ ty : Int, ty ≠ 0 → rss.map (·.count ty) = answers addressQueries ty path prev items) →
    picked (items.zip rss) = addressLines (path.map (·.name)) prev items ∧
      ∀ p ∈ items.zip rss, p.1.1 ≠ .TagAttribValue → p.2 = [] := by
  intro items
  induction items with
  | nil => intro _ _ _ _ _; exact ⟨rfl, fun _ h => nomatch h⟩
  | cons it items ih =>
    intro path prev rss h0 h
    cases rss with
    | nil => exact nomatch h 1 (by decide)
    | cons rs rss =>
      have h1 : ∀ ty : Int, ty ≠ 0 → rs.count ty = ((addressQueries.filter (·.type = ty)).map fun x => x.answers path prev it).sum ∧
          rss.map (·.count ty) = answers addressQueries ty (grown path prev it) (some it) items := by
        intro ty hty
        have := h ty hty
        rw [List.map_cons, answers] at this
        exact List.cons.inj this
      have h2 := address_results (h0 rs List.mem_cons_self) fun ty hty => (h1 ty hty).1
      obtain ⟨h3, h4⟩ := ih (grown path prev it) (some it) rss (fun r hr => h0 r (List.mem_cons_of_mem _ hr)) fun ty hty => (h1 ty hty).2
      rw [List.zip_cons_cons]
      refine ⟨?_, ?_⟩
      · rw [addressLines, ← grown_names, ← h3, show picked ((it, rs) :: items.zip rss) = picked [(it, rs)] ++ picked (items.zip rss) by simp [picked]]
        congr 1
        rw [h2]
        by_cases g1 : path.map (·.name) = [codes "address"] ∧ it.1 = .TagAttribValue
        · rw [if_pos g1, if_pos g1]
          by_cases g2 : prev = some (.TagAttribName, codes "name")
          · rw [if_pos g2, if_pos g2]
            simp only [picked, List.flatMap_cons, List.flatMap_nil, List.append_nil, g1.2]
            rw [show showInt 1 ++ ascii ": " ++ elementTypeName .TagAttribValue = codes "1: TagAttribValue" by decide +kernel]
            rfl
          · rw [if_neg g2, if_neg g2]
            by_cases g3 : prev = some (.TagAttribName, codes "street")
            · rw [if_pos g3, if_pos g3]
              simp only [picked, List.flatMap_cons, List.flatMap_nil, List.append_nil, g1.2]
              rw [show showInt 2 ++ ascii ": " ++ elementTypeName .TagAttribValue = codes "2: TagAttribValue" by decide +kernel]
              rfl
            · rw [if_neg g3, if_neg g3]; rfl
        · rw [if_neg g1, if_neg g1]; rfl
      · intro p hp
        rcases List.mem_cons.1 hp with rfl | hp
        · intro ht
          simp only at ht ⊢
          rw [h2, if_neg fun h => ht h.2]
        · exact h4 p hp

theorem picked_last {i : Item} (hi : i.1 ≠ .TagAttribValue) : ∀ (l : List Item) (rss : List (List Int)),
    (∀ p ∈ (l ++ [i]).zip rss, p.1.1 ≠ .TagAttribValue → p.2 = []) → picked (l.zip rss) = picked ((l ++ [i]).zip rss) := by
  intro l
  induction l with
  | nil =>
    intro rss h
    cases rss with
    | nil => rfl
    | cons rs rss =>
      have := h (i, rs) (by simp) hi
      simp only at this
      subst this
      simp [picked]
  | cons x l ih =>
    intro rss h
    cases rss with
    | nil => rfl
    | cons rs rss =>
      have := ih rss fun p hp => h p (by rw [List.cons_append, List.zip_cons_cons]; exact List.mem_cons_of_mem _ hp)
      rw [List.cons_append, List.zip_cons_cons, List.zip_cons_cons]
      unfold picked at this ⊢
      rw [List.flatMap_cons, List.flatMap_cons, this]

/-- C97: for a document given as a null terminated string the program writes the value of each attribute `name` and `street` of a root element
`address`, and nothing else. -/
theorem C97_document (he : ByteSet e) (hde : PageOk de) {d : Document} (hd : d.Ok de) (hl : (d.bytes de).length + 24 ≤ 2 ^ 32) {nb : Nat} (hn : 1024 < nb) :
    ∃ N, ∀ n k, N ≤ n → d.items.length ≤ k →
      selectAll e addressCalls nb n k (cstrScanner de e em addr (d.bytes de)) = (addressLines [] none (docItems e d), .returned true) := by
  have hq : addressQueries.map Query.calls = addressCalls := address_calls
  obtain ⟨rss, h1, h2⟩ := C73_queries_partial he hn addressQueries (address_ok he) (docItems e d)
    (headerFree_document he d (.inr fun ss hss s hs => by
      simp only [addressQueries, List.map_cons, List.map_nil, Query.tags, List.mem_cons, List.not_mem_nil, or_false] at hss
      rcases hss with rfl | rfl <;> (cases hs; exact ⟨_, rfl, by decide⟩)))
    (fun _ => tidy_document d)
    (fun ⟨x, hx, nm, h⟩ => by
      simp only [addressQueries, List.mem_cons, List.not_mem_nil, or_false] at hx
      rcases hx with rfl | rfl <;> cases h)
    (fun ⟨x, hx, h, _⟩ => by
      simp only [addressQueries, List.mem_cons, List.not_mem_nil, or_false] at hx
      rcases hx with rfl | rfl <;> cases h)
  rw [hq] at h1
  have h3 := h1
  obtain ⟨_, _, _, _, N, _, h3⟩ := h3
  have h3 := feed_nonzero _ (h3 N (Nat.le_refl _))
  obtain ⟨h4, h5⟩ := address_lines _ _ _ _ h3 h2
  obtain ⟨N, h⟩ := select_document (em := em) (addr := addr) hde hd hl h1 fun p hp ht => h5 p hp (by rcases ht with h | h <;> rw [h] <;> exact nofun)
  refine ⟨N, fun n k hn hk => ?_⟩
  have hdoc : docItems e d = (docItems e d).dropLast ++ [(.Exit, [])] := by
    unfold docItems
    rw [← List.map_dropLast]
    conv => lhs; rw [(document_end d).1]
    rw [List.map_append]
    rfl
  rw [h n k hn hk, picked_last (i := (.Exit, [])) nofun _ _ (by rwa [← hdoc]), ← hdoc, h4]
  rfl

/-! ## Examples -/

/-- The conditions, for a document with all kinds of marks. -/
example : grammarExample.Ok .utf8 ∧ (grammarExample.bytes .utf8).length + 24 ≤ 2 ^ 32 ∧ ByteSet .utf8 :=
  ⟨grammarExample_ok (fun p h => nomatch h) (by simp [Direct]), by decide +kernel, .inl rfl⟩

/-- Attributes of the root and of other elements. -/
example : selectAll .utf8 addressCalls 2000 100 20 (cstrScanner .utf8 .utf8 none 0 (codes "<address street='S' x='1' name='N'><address name='M'/></address>")) =
    (codes "2: TagAttribValueS\n1: TagAttribValueN\n", .returned true) := by
  decide +kernel

/-- The lines of the specification for a document whose root is no address. -/
example : addressLines [] none [(.OpenTag, codes "b"), (.OpenTag, codes "address"), (.TagAttribName, codes "name"), (.TagAttribValue, codes "N")] = [] := by
  decide +kernel

/-- A text with an error: the lines before are written, and the exception has the text of the last item. -/
theorem C97_error : selectAll .utf8 addressCalls 2000 100 20 (cstrScanner .utf8 .utf8 none 0 (codes "<address name='N'></address x>")) =
    (codes "1: TagAttribValueN\n", .thrown (codes "xml error: address")) := by
  decide +kernel

end TW
