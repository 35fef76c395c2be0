import Verif.Spec.Conditions
import Verif.Props.Path

/-!
# Property C75: conditions of steps
-/

namespace TW

open Spec Spec.Path TW.Path

theorem inOrder_nil_cons {c : Cond} {cs : List Cond} : ¬ InOrder (c :: cs) [] := fun h => nomatch h

theorem choices_pos {cs : List Cond} : ∀ {as : List (List Byte × List Byte)}, 0 < choices cs as ↔ InOrder cs as := by
  intro as
  induction as generalizing cs with
  | nil =>
    cases cs with
    | nil => exact ⟨fun _ => .none _, fun _ => by simp [choices]⟩
    | cons c cs => exact ⟨fun h => by simp [choices] at h, fun h => (inOrder_nil_cons h).elim⟩
  | cons a as ih =>
    cases cs with
    | nil => exact ⟨fun _ => .none _, fun _ => by simp [choices]⟩
    | cons c cs =>
      constructor
      · intro h
        unfold choices at h
        by_cases h1 : 0 < choices (c :: cs) as
        · exact .skip (ih.1 h1)
        · by_cases h2 : c.accepts a = true
          · rw [if_pos h2] at h
            exact .take h2 (ih.1 (by omega))
          · rw [if_neg h2] at h
            omega
      · intro h
        unfold choices
        cases h with
        | take h1 h2 =>
          rw [if_pos h1]
          have := ih.2 h2
          omega
        | skip h1 =>
          have := ih.2 h1
          omega

theorem inOrder_name {c : Cond} {cs : List Cond} {nm : List Byte} (hc : c.name = some nm) {as : List (List Byte × List Byte)}
    (h : InOrder (c :: cs) as) : nm ∈ as.map (·.1) := by
  generalize hl : c :: cs = l at h
  induction h with
  | none as => cases hl
  | take h1 h2 ih =>
    cases hl
    unfold Cond.accepts at h1
    rw [hc] at h1
    simp only [Bool.and_eq_true, decide_eq_true_eq] at h1
    rw [List.map_cons, h1.1]
    exact List.mem_cons_self ..
  | skip h1 ih => exact List.mem_cons_of_mem _ (ih hl)

/-- With attributes of different names, a list of conditions with names can be fulfilled in one way at most. -/
theorem choices_le {cs : List Cond} (hc : ∀ c ∈ cs, c.name ≠ none) : ∀ {as : List (List Byte × List Byte)}, (as.map (·.1)).Nodup →
    choices cs as ≤ 1 := by
  intro as
  induction as generalizing cs with
  | nil => intro _; cases cs <;> simp [choices]
  | cons a as ih =>
    intro hd
    rw [List.map_cons, List.nodup_cons] at hd
    cases cs with
    | nil => simp [choices]
    | cons c cs =>
      have h1 := ih (fun c hc' => hc c (List.mem_cons_of_mem _ hc')) hd.2
      have h2 := ih hc hd.2
      unfold choices
      by_cases h3 : c.accepts a = true
      · rw [if_pos h3]
        have : ¬ 0 < choices (c :: cs) as := by
          intro h
          obtain ⟨nm, hnm⟩ := Option.ne_none_iff_exists'.1 (hc c (List.mem_cons_self ..))
          have h4 := inOrder_name hnm (choices_pos.1 h)
          unfold Cond.accepts at h3
          rw [hnm] at h3
          simp only [Bool.and_eq_true, decide_eq_true_eq] at h3
          rw [h3.1] at h4
          exact hd.1 h4
        omega
      · rw [if_neg h3]
        omega

theorem routes_selected {ss : List CStep} (hs : ∀ s ∈ ss, s.desc = false ∧ ∀ c ∈ s.conds, c.name ≠ none) : ∀ {path : List Open},
    (∀ x ∈ path, Distinct x) → (Selected ss path → routes ss path = 1) ∧ (¬ Selected ss path → routes ss path = 0) := by
  induction ss with
  | nil =>
    intro path _
    cases path with
    | nil => exact ⟨fun _ => rfl, fun h => (h trivial).elim⟩
    | cons x path => exact ⟨fun h => h.elim, fun _ => rfl⟩
  | cons s ss ih =>
    intro path hp
    cases path with
    | nil => exact ⟨fun h => h.elim, fun _ => rfl⟩
    | cons x path =>
      obtain ⟨h1, h2⟩ := ih (fun s hs' => hs s (List.mem_cons_of_mem _ hs')) (path := path) fun x hx => hp x (List.mem_cons_of_mem _ hx)
      obtain ⟨h3, h4⟩ := hs s (List.mem_cons_self ..)
      have h5 := choices_le h4 (hp x (List.mem_cons_self ..))
      have h6 : 0 < choices s.conds x.attrs ↔ _ := choices_pos
      unfold routes
      rw [h3]
      simp only [Bool.false_eq_true, if_false, Nat.add_zero]
      constructor
      · rintro ⟨k1, k2, k3⟩
        rw [if_pos k1, h1 k3]
        have := h6.2 k2
        omega
      · intro h
        by_cases k1 : s.accepts x.name = true
        · rw [if_pos k1]
          by_cases k2 : InOrder s.conds x.attrs
          · rw [h2 fun k3 => h ⟨k1, k2, k3⟩, Nat.mul_zero]
          · have : choices s.conds x.attrs = 0 := by
              by_cases h0 : choices s.conds x.attrs = 0
              · exact h0
              · exact (k2 (h6.1 (by omega))).elim
            rw [this, Nat.zero_mul]
        · rw [if_neg k1]

theorem grown_opentag {path : List Open} {prev : Option Item} {key : List Byte} :
    grown path prev (.OpenTag, key) = path ++ [⟨key, []⟩] := rfl

/-- C75 (partial): an expression for elements with steps from the root and conditions reports an element once: when the name and the
attributes that have come select it, at its open tag or at the value of the attribute that fulfils the last condition; and it reports nothing
else. The attributes of an element have to have different names.

Missing: the conditions are only fulfilled by attributes in the same order, see `C75_order_false`; for steps with one condition there
is no order, see `inOrder_one`. The values have to be words, see `C75_value_false`. For steps to descendants, see `C73_queries_partial`. -/
theorem C75_conditions_partial {e : Enc} (he : ByteSet e) {n : Nat} (hn : 1024 < n) {ss : List CStep} {ty : Int} (hty : ty ≠ 0)
    (hx : (⟨ss, .element, ty⟩ : Query).Ok e) (hs : ∀ s ∈ ss, s.desc = false ∧ ∀ c ∈ s.conds, c.name ≠ none) {items : List Item}
    (hh : HeaderFree [ss.map (·.toStep)] [] items) (ht : Tidy [] none items) (hd : DistinctNames [] none items) :
    ∃ rss, Selects e n [(⟨ss, .element, ty⟩ : Query).calls] items rss ∧ OneEach ss [] none items (rss.map (·.count ty)) := by
  obtain ⟨rss, h1, h2⟩ := C73_queries_partial he hn [⟨ss, .element, ty⟩] (fun x h => by rw [List.mem_singleton.1 h]; exact hx) items hh
    (fun _ => ht) (fun ⟨x, h, name, k⟩ => by rw [List.mem_singleton.1 h] at k; cases k)
    (fun ⟨x, h, _, d, name, k⟩ => by rw [List.mem_singleton.1 h] at k; cases k)
  refine ⟨rss, h1, ?_⟩
  rw [h2 ty hty]
  have main : ∀ (items : List Item) path prev, (∀ x ∈ path, Distinct x) → DistinctNames path prev items →
      OneEach ss path prev items (answers [⟨ss, .element, ty⟩] ty path prev items) := by
    intro items
    induction items with
    | nil => intro _ _ _ _; rfl
    | cons it items ih =>
      intro path prev hp hd
      refine ⟨_, _, rfl, ?_, ?_, ih _ _ hd.1 hd.2⟩ <;> intro hc <;>
        simp only [List.filter_cons, List.filter_nil, decide_true, if_true, List.map_cons, List.map_nil, List.sum_cons, List.sum_nil,
          Nat.add_zero, Query.answers]
      · rcases hc.2 with h3 | ⟨h3, h4⟩
        · simp only [h3]
          exact (routes_selected hs hd.1).1 hc.1
        · simp only [h3]
          rw [(routes_selected hs hd.1).1 hc.1, (routes_selected hs hp).2 h4]
      · split
        · rename_i h3
          exact (routes_selected hs hd.1).2 fun k => hc ⟨k, .inl h3⟩
        · rename_i h3
          by_cases h4 : Selected ss path
          · rw [(routes_selected hs hp).1 h4]
            by_cases h5 : Selected ss (grown path prev it)
            · rw [(routes_selected hs hd.1).1 h5]
            · rw [(routes_selected hs hd.1).2 h5]
          · rw [(routes_selected hs hd.1).2 fun k => hc ⟨k, .inr ⟨h3, h4⟩⟩, Nat.zero_sub]
        · rfl
  exact main items [] none (fun x h => nomatch h) hd

/-- One condition is fulfilled by any of the attributes. -/
theorem inOrder_one {c : Cond} {as : List (List Byte × List Byte)} : InOrder [c] as ↔ ∃ a ∈ as, c.accepts a = true := by
  induction as with
  | nil => exact ⟨fun h => (inOrder_nil_cons h).elim, fun ⟨a, h, _⟩ => nomatch h⟩
  | cons a as ih =>
    constructor
    · intro h
      cases h with
      | take h1 h2 => exact ⟨a, List.mem_cons_self .., h1⟩
      | skip h1 =>
        obtain ⟨b, h2, h3⟩ := ih.1 h1
        exact ⟨b, List.mem_cons_of_mem _ h2, h3⟩
    · rintro ⟨b, h1, h2⟩
      rcases List.mem_cons.1 h1 with rfl | h1
      · exact .take h2 (.none _)
      · exact .skip (ih.2 ⟨b, h1, h2⟩)

/-- An element is never selected without attributes for all of the conditions. -/
theorem inOrder_sub {cs : List Cond} {as : List (List Byte × List Byte)} (h : InOrder cs as) : ∀ c ∈ cs, ∃ a ∈ as, c.accepts a = true := by
  induction h with
  | none as => intro c h; cases h
  | take h1 h2 ih =>
    intro c hc
    rcases List.mem_cons.1 hc with rfl | hc
    · exact ⟨_, List.mem_cons_self .., h1⟩
    · obtain ⟨b, h3, h4⟩ := ih c hc
      exact ⟨b, List.mem_cons_of_mem _ h3, h4⟩
  | skip h1 ih =>
    intro c hc
    obtain ⟨b, h3, h4⟩ := ih c hc
    exact ⟨b, List.mem_cons_of_mem _ h3, h4⟩

/-- `/a[@a='b']/b[@a='a'][@b='b']` and `<a a='b'><b a='a' b='b'>`: the last item completes the selection. -/
def exSteps : List CStep := [⟨⟨false, some [97]⟩, [⟨some [97], some [98]⟩]⟩,
  ⟨⟨false, some [98]⟩, [⟨some [97], some [97]⟩, ⟨some [98], some [98]⟩]⟩]

def exConds : List Item := [(.OpenTag, [97]), (.TagAttribName, [97]), (.TagAttribValue, [98]), (.OpenTag, [98]), (.TagAttribName, [97]),
  (.TagAttribValue, [97]), (.TagAttribName, [98]), (.TagAttribValue, [98])]

example : (⟨exSteps, .element, 1⟩ : Query).Ok .utf8 ∧ (∀ s ∈ exSteps, s.desc = false ∧ ∀ c ∈ s.conds, c.name ≠ none) ∧
    HeaderFree [exSteps.map (·.toStep)] [] exConds ∧ Tidy [] none exConds ∧ DistinctNames [] none exConds ∧
    Selects .utf8 2000 [(⟨exSteps, .element, 1⟩ : Query).calls] exConds [[], [], [], [], [], [], [], [1]] := by
  have na : ∀ nm, some [97] = some nm → Name .utf8 nm := fun nm h => by cases h; exact exName.1
  have nb : ∀ nm, some [98] = some nm → Name .utf8 nm := fun nm h => by cases h; exact exName.2
  have hs : ∀ s ∈ exSteps, s.desc = false ∧ ∀ c ∈ s.conds, c.name ≠ none := by decide
  have hd : DistinctNames [] none exConds := by simp [DistinctNames, exConds, grown, Distinct]
  have ht : Tidy [] none exConds := by simp [Tidy, exConds, after]
  have hh : HeaderFree [exSteps.map (·.toStep)] [] exConds := by simp [HeaderFree, exConds]
  have hx : (⟨exSteps, .element, 1⟩ : Query).Ok .utf8 := by
    refine ⟨(nomatch ·), ?_, fun _ _ k => nomatch k⟩
    intro s hs
    simp only [exSteps, List.mem_cons, List.not_mem_nil, or_false] at hs
    rcases hs with rfl | rfl
    · refine ⟨na, fun c hc => ?_⟩
      simp only [List.mem_cons, List.not_mem_nil, or_false] at hc
      subst hc
      exact ⟨na, nb⟩
    · refine ⟨nb, fun c hc => ?_⟩
      simp only [List.mem_cons, List.not_mem_nil, or_false] at hc
      rcases hc with rfl | rfl
      · exact ⟨na, na⟩
      · exact ⟨nb, nb⟩
  exact ⟨hx, hs, hh, ht, hd, selects_of_run 100 (by decide +kernel)⟩

/-- C75 is false for conditions in another order than the attributes: `/a[@b='x'][@c='y']` does not select `<a c='y' b='x'>`. -/
theorem C75_order_false :
    let x : Query := ⟨[⟨⟨false, some [97]⟩, [⟨some [98], some [120]⟩, ⟨some [99], some [121]⟩]⟩], .element, 1⟩
    let items (l : List (List Byte × List Byte)) : List Item :=
      (.OpenTag, [97]) :: l.flatMap fun a => [(.TagAttribName, a.1), (.TagAttribValue, a.2)]
    Selects .utf8 2000 [x.calls] (items [([98], [120]), ([99], [121])]) [[], [], [], [], [1]] ∧
    Selects .utf8 2000 [x.calls] (items [([99], [121]), ([98], [120])]) [[], [], [], [], []] :=
  ⟨selects_of_run 100 (by decide +kernel), selects_of_run 100 (by decide +kernel)⟩

/-- C75 is false for values with other characters than those of tags: `/a[@b='c d']` selects `<a b='c'>` and not `<a b='c d'>`. -/
theorem C75_value_false :
    let x : Query := ⟨[⟨⟨false, some [97]⟩, [⟨some [98], some [99, 32, 100]⟩]⟩], .element, 1⟩
    let items (v : List Byte) : List Item := [(.OpenTag, [97]), (.TagAttribName, [98]), (.TagAttribValue, v)]
    Selects .utf8 2000 [x.calls] (items [99]) [[], [], [1]] ∧ Selects .utf8 2000 [x.calls] (items [99, 32, 100]) [[], [], []] :=
  ⟨selects_of_run 100 (by decide +kernel), selects_of_run 100 (by decide +kernel)⟩

end TW
