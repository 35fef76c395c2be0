import Verif.Props.Path
import Verif.Props.KeyName

/-!
# Property C85 for whole queries
-/

namespace TW

open Spec Spec.Path TW.Path Scanner

variable {e : Enc}

/-- The keys of the names and values of a query. -/
theorem keyed_via (he : ByteSet e) {n : Nat} {x : Query}
    (hc : ∀ cs, cs ∈ x.names ∨ some cs ∈ x.values → cs.length < n ∧ ∀ c ∈ cs, c < 2 ^ 32 ∧ Direct e c ∧ c ≠ 0) :
    keyed e n (x.via (·.flatMap e.print)) = x.via (asked e) := by
  have key : ∀ {nm : Option (List Nat)}, (∀ cs, nm = some cs → cs ∈ x.names ∨ some cs ∈ x.values) →
      keyOf e n (nm.map (·.flatMap e.print)) = nm.map (asked e) := by
    intro nm h
    cases nm with
    | none => rfl
    | some cs =>
      obtain ⟨h1, h2⟩ := hc cs (h cs rfl)
      unfold keyOf
      simp only [Option.map_some, C85_key he h2 h1]
      rfl
  unfold keyed Query.via
  congr 1
  · rw [List.map_map]
    apply List.map_congr_left
    intro s hs
    show keyedStep e n (s.via _) = s.via _
    unfold keyedStep CStep.via
    congr 1
    · congr 1
      exact key fun cs h => .inl (List.mem_append_left _ (List.mem_append_left _ (List.mem_filterMap.2 ⟨s, hs, h⟩)))
    · rw [List.map_map]
      apply List.map_congr_left
      intro c hcm
      have hm : c ∈ x.steps.flatMap (·.conds) := List.mem_flatMap.2 ⟨s, hs, hcm⟩
      show keyedCond e n (c.via _) = c.via _
      unfold keyedCond Cond.via
      congr 1
      · exact key fun cs h => .inl (List.mem_append_left _ (List.mem_append_right _ (List.mem_filterMap.2 ⟨c, hm, h⟩)))
      · exact key fun cs h => .inr (List.mem_map.2 ⟨c, hm, h⟩)
  · cases hf : x.final with
    | «attribute» d name =>
      show Final.attribute d _ = Final.attribute d _
      congr 1
      refine key fun cs h => .inl (List.mem_append_right _ ?_)
      rw [hf]
      exact Option.mem_toList.2 h
    | _ => rfl

/-- C85: what queries built with any names and values select. The names and values are texts of characters of the character set of the automaton;
the types are reported at the items of a stream as the queries with the taken parts of the names and values have to be answered there, compared byte by byte. No
taken part of a name may be empty, and one of a value only if there is no condition without a value, see `C44_empty_false`. -/
theorem C85_queries (he : ByteSet e) {n : Nat} (xs : List Query)
    (hc : ∀ x ∈ xs, ∀ cs, cs ∈ x.names ∨ some cs ∈ x.values → cs.length < n ∧ ∀ c ∈ cs, c < 2 ^ 32 ∧ Direct e c ∧ c ≠ 0)
    (hn : ∀ x ∈ xs, ∀ cs ∈ x.names, asked e cs ≠ [])
    (hv : (∃ x ∈ xs, ∃ cs, some cs ∈ x.values ∧ asked e cs = []) → ∀ x ∈ xs, none ∉ x.values)
    (hr : ∀ x ∈ xs, x.steps = [] → (∃ d, x.final = .content d) ∨ ∃ d name, x.final = .attribute d name)
    (items : List Item) (hh : HeaderFree (xs.map fun x => (x.via (asked e)).tags) [] items) (ht : Tidy [] none items) (hq : Quiet xs) (ho : Outside xs items) :
    ∃ rss, Selects e n (xs.map fun x => (x.via (·.flatMap e.print)).calls) items rss ∧
      ∀ ty, ty ≠ 0 → rss.map (·.count ty) = answers (xs.map (·.via (asked e))) ty [] none items := by
  have hk : ((xs.map (·.via (·.flatMap e.print)))).map (keyed e n) = xs.map (·.via (asked e)) := by
    rw [List.map_map]
    exact List.map_congr_left fun x hx => keyed_via he (hc x hx)
  have fits : ∀ ty, ∀ d ∈ (xs.map (·.via (·.flatMap e.print))).map Def.query,
      DefFits (∃ x ∈ xs, ∃ cs, some cs ∈ x.values ∧ asked e cs = []) e n ty d := by
    intro ty d hd
    obtain ⟨y, h1, rfl⟩ := List.mem_map.1 hd
    obtain ⟨x, h2, rfl⟩ := List.mem_map.1 h1
    have name : ∀ {nm : Option (List Nat)}, (∀ cs, nm = some cs → cs ∈ x.names) → NameOk e n (nm.map (·.flatMap e.print)) := by
      intro nm h k hk
      obtain ⟨cs, rfl, rfl⟩ := Option.map_eq_some_iff.1 hk
      obtain ⟨h3, h4⟩ := hc x h2 cs (.inl (h cs rfl))
      exact ⟨_, C85_key he h4 h3, hn x h2 cs (h cs rfl)⟩
    refine ⟨fun s hs => ?_, fun d nm hf => ?_⟩
    · obtain ⟨s, hs', rfl⟩ := List.mem_map.1 hs
      refine ⟨name fun cs h => List.mem_append_left _ (List.mem_append_left _ (List.mem_filterMap.2 ⟨s, hs', h⟩)), fun c hcm => ?_⟩
      obtain ⟨c, hcm', rfl⟩ := List.mem_map.1 hcm
      have hm : c ∈ x.steps.flatMap (·.conds) := List.mem_flatMap.2 ⟨s, hs', hcm'⟩
      refine ⟨name fun cs h => List.mem_append_left _ (List.mem_append_right _ (List.mem_filterMap.2 ⟨c, hm, h⟩)), ?_⟩
      have hcv : c.value ∈ x.values := List.mem_map.2 ⟨c, hm, rfl⟩
      cases hv' : c.value with
      | none =>
        rw [hv'] at hcv
        simp only [Cond.via, hv', Option.map_none]
        exact fun k => hv k.1 x h2 hcv
      | some cs =>
        rw [hv'] at hcv
        simp only [Cond.via, hv', Option.map_some]
        obtain ⟨h3, h4⟩ := hc x h2 cs (.inr hcv)
        exact ⟨_, C85_key he h4 h3, fun k => ⟨⟨x, h2, cs, hcv, k⟩, rfl⟩⟩
    · have hf' : x.final.via (·.flatMap e.print) = .attribute d nm := hf
      cases hx : x.final with
      | «attribute» d' nm' =>
        rw [hx] at hf'
        cases hf'
        refine name fun cs h => List.mem_append_right _ ?_
        rw [hx]
        exact Option.mem_toList.2 h
      | element => rw [hx] at hf'; cases hf'
      | content _ => rw [hx] at hf'; cases hf'
      | closeTag _ => rw [hx] at hf'; cases hf'
  have fin : ∀ {f : List Nat → List Byte} {x : Query} {d name}, (x.via f).final = .attribute d name → ∃ name', x.final = .attribute d name' := by
    intro f x d name h
    have h' : x.final.via f = .attribute d name := h
    cases hx : x.final with
    | «attribute» d' nm' => rw [hx] at h'; cases h'; exact ⟨nm', rfl⟩
    | element => rw [hx] at h'; cases h'
    | content _ => rw [hx] at h'; cases h'
    | closeTag _ => rw [hx] at h'; cases h'
  have main := fun (ty : Int) (hty : ty ≠ 0) => select_keyed (e := e) (n := n) (xs := xs.map (·.via (asked e))) ((xs.map (·.via (·.flatMap e.print))).map .query)
    (by rw [queries_map]; exact hk) hty (fits ty)
    (by
      intro y hy _ h
      obtain ⟨x, h1, rfl⟩ := List.mem_map.1 hy
      rcases hr x h1 (List.map_eq_nil_iff.1 h) with ⟨d, k⟩ | ⟨d, name, k⟩
      · exact .inl ⟨d, by unfold Query.via; rw [k]; rfl⟩
      · exact .inr ⟨d, name.map (asked e), by unfold Query.via; rw [k]; rfl⟩)
    (by
      intro y hy _ name h d hd
      obtain ⟨x, h1, rfl⟩ := List.mem_map.1 hy
      obtain ⟨z, h3, rfl⟩ := List.mem_map.1 hd
      obtain ⟨z, h4, rfl⟩ := List.mem_map.1 h3
      obtain ⟨name', h5⟩ := fin h
      refine content_calls fun d k => hq ⟨x, h1, name', h5⟩ z h4 d ?_
      have k' : z.final.via (·.flatMap e.print) = .content d := k
      cases hz : z.final with
      | content d' => rw [hz] at k'; exact k'
      | element => rw [hz] at k'; cases k'
      | «attribute» _ _ => rw [hz] at k'; cases k'
      | closeTag _ => rw [hz] at k'; cases k') items
    (by
      refine HeaderFree.mono (fun y hy => ?_) hh
      obtain ⟨z, k1, rfl⟩ := List.mem_map.1 hy
      obtain ⟨x, k2, rfl⟩ := List.mem_map.1 (List.mem_filter.1 k1).1
      exact List.mem_map.2 ⟨x, k2, rfl⟩)
    (fun _ _ _ _ => ht)
    (by
      intro y hy _ h1 d name h2
      obtain ⟨x, h3, rfl⟩ := List.mem_map.1 hy
      obtain ⟨name', h4⟩ := fin h2
      exact ho ⟨x, h3, List.map_eq_nil_iff.1 h1, d, name', h4⟩)
  have hcalls : ((xs.map (·.via (·.flatMap e.print))).map Def.query).map Def.calls = xs.map fun x => (x.via (·.flatMap e.print)).calls := by
    simp [Def.calls, Function.comp_def]
  simp only [hcalls] at main
  obtain ⟨a, s, h1, h2, N, rss, s', h3, h4⟩ := main 1 (by decide)
  refine ⟨rss, ⟨a, s, h1, h2, N, s', h3⟩, fun ty hty => ?_⟩
  obtain ⟨a', s1, k1, k2, N', rss', s2, k3, k4⟩ := main ty hty
  rw [h1] at k1
  cases k1
  rw [h2] at k2
  cases k2
  have := h3 (max N N') (by omega)
  rw [k3 (max N N') (by omega)] at this
  cases this
  exact k4

/-- `//a b[@k='']` and `//a[@k='x y']/@k&` -/
def keyExample : List Query := [⟨[⟨⟨true, some (ascii "a b")⟩, [⟨some (ascii "k"), some []⟩]⟩], .element, 1⟩,
  ⟨[⟨⟨true, some (ascii "a")⟩, [⟨some (ascii "k"), some (ascii "x y")⟩]⟩], .attribute false (some (ascii "k&")), 2⟩]

example : (∀ x ∈ keyExample, ∀ cs, cs ∈ x.names ∨ some cs ∈ x.values → cs.length < 2000 ∧ ∀ c ∈ cs, c < 2 ^ 32 ∧ Direct .utf8 c ∧ c ≠ 0) ∧
    (∀ x ∈ keyExample, ∀ cs ∈ x.names, asked .utf8 cs ≠ []) ∧ (∃ x ∈ keyExample, ∃ cs, some cs ∈ x.values ∧ asked .utf8 cs = []) ∧
    (∀ x ∈ keyExample, none ∉ x.values) ∧ Quiet keyExample ∧
    keyExample.map (·.via (asked .utf8)) = [⟨[⟨⟨true, some [97]⟩, [⟨some [107], some []⟩]⟩], .element, 1⟩,
      ⟨[⟨⟨true, some [97]⟩, [⟨some [107], some [120]⟩]⟩], .attribute false (some [107, 0]), 2⟩] ∧
    answers (keyExample.map (·.via (asked .utf8))) 1 [] none [(.OpenTag, [97]), (.TagAttribName, [107]), (.TagAttribValue, [])] = [0, 0, 1] := by
  refine ⟨?_, ?_, ⟨_, List.mem_cons_self .., [], by decide, by decide⟩, ?_, ?_, by decide +kernel, by decide +kernel⟩
  · intro x hx cs h
    have : ∀ x ∈ keyExample, ∀ cs ∈ x.names ++ x.values.filterMap id, cs.length < 2000 ∧ ∀ c ∈ cs, c < 2 ^ 32 ∧ Direct .utf8 c ∧ c ≠ 0 := by
      simp only [Direct]
      decide
    refine this x hx cs ?_
    rcases h with h | h
    · exact List.mem_append_left _ h
    · exact List.mem_append_right _ (List.mem_filterMap.2 ⟨_, h, rfl⟩)
  · decide +kernel
  · decide
  · rintro ⟨x, hx, name, h⟩
    simp only [keyExample, List.mem_cons, List.not_mem_nil, or_false] at hx
    rcases hx with rfl | rfl <;> cases h

end TW
