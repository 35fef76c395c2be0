import Verif.Props.Pipeline

/-!
# Property C76: alternatives in expressions
-/

namespace TW

open Spec Spec.Path TW.Path Scanner

variable {se e : Enc}

theorem optPicks_simple {name : Option TName} (h : ∀ l, name ≠ some (.alt l)) : optPicks name = [name] := by
  cases name with
  | none => rfl
  | some nm =>
    cases nm with
    | any => rfl
    | one cs => rfl
    | alt l => exact (h l rfl).elim

/-- An expression without alternatives has no choice. -/
theorem simple_picks {p : TPath} (h : p.Simple) : p.picks = [p] := by
  have steps : ∀ (ss : List TStep), (∀ s ∈ ss, ∀ l, s.name ≠ some (.alt l)) → ∀ l,
      ss.foldl (fun acc s => s.picks.flatMap fun x => acc.map (· ++ [x])) [l] = [l ++ ss] := by
    intro ss
    induction ss with
    | nil => intro _ l; simp
    | cons s ss ih =>
      intro hs l
      have : s.picks = [s] := by
        unfold TStep.picks
        rw [optPicks_simple (hs s (List.mem_cons_self ..))]
        rfl
      rw [List.foldl_cons, this]
      simp only [List.flatMap_cons, List.flatMap_nil, List.map_cons, List.map_nil, List.append_nil]
      rw [ih fun s hs' => hs s (List.mem_cons_of_mem _ hs')]
      simp
  have final : p.final.picks = [p.final] := by
    have h2 := h.2
    cases hf : p.final with
    | «attribute» sep name =>
      rw [hf] at h2
      simp only [TEnd.picks]
      rw [optPicks_simple fun l hl => h2 sep l (by rw [hl])]
      rfl
    | _ => rfl
  unfold TPath.picks
  rw [final, steps p.steps h.1]
  simp

/-- The choices have no alternatives. -/
theorem picks_simple {p q : TPath} (hp : p.Ok) (hq : q ∈ p.picks) : q.Simple := by
  obtain ⟨h1, h2, -⟩ := picks_mem hq
  refine ⟨fun s hs l k => ?_, fun sep l k => ?_⟩
  · obtain ⟨t, k1, k2⟩ := h1 s hs
    obtain ⟨-, -, -, k3⟩ := step_picks_mem k2
    obtain ⟨y, k4, k5⟩ := k3 _ k
    exact (name_picks_mem k5 ((hp.1 t k1).1 y k4)).2.1 l rfl
  · rcases end_picks_mem h2 with ⟨h3, h4⟩ | ⟨sep', nm, nm', h3, h4, h5⟩
    · rw [h3] at k
      exact h4 _ _ k
    · rw [h4] at k
      cases k
      obtain ⟨y, k1, k2⟩ := (optPicks_mem h5).2 _ rfl
      have := hp.2.2
      rw [h3] at this
      exact (name_picks_mem k2 (this y k1)).2.1 l rfl

theorem Spec.Path.Calm.mono {ws vs : List Written} (h : Calm ws) (hs : ∀ v ∈ vs, v ∈ ws) : Calm vs :=
  fun ⟨w, h1, h2⟩ v hv => h ⟨w, hs w h1, h2⟩ v (hs v hv)

/-- C76: an expression with alternatives selects from a document the same as the expressions made by taking one of the alternatives at each
place, added one after the other, whatever other expressions are in the automaton. All other conditions are those of C74. -/
theorem C76_alternatives_partial (hse : PageOk se) (he : ByteSet e) {n : Nat} {w : Written} {vs us us' : List Written}
    (hw : ∀ x ∈ w :: vs ++ us ++ us', x.Ok se e ∧ x.codes.length < n)
    (hv : vs.map (·.path) = w.path.picks) (ht : ∀ v ∈ vs, v.type = w.type) {d : Document}
    (hh : d.header = none ∨ ∀ x ∈ w :: vs ++ us ++ us', x.Inside) (hq : Calm (w :: vs ++ us ++ us')) :
    ∃ a s a' s', addAll se e n ((us ++ [w] ++ us').map fun w => (w.type, w.bytes se)) [] = (.ok (List.replicate (us ++ [w] ++ us').length 0), a) ∧
      Sel.mk' a = .ok s ∧
      addAll se e n ((us ++ vs ++ us').map fun w => (w.type, w.bytes se)) [] = (.ok (List.replicate (us ++ vs ++ us').length 0), a') ∧
      Sel.mk' a' = .ok s' ∧
      ∃ N rss rss' t t', (∀ m, N ≤ m → Sel.feed m (docItems e d) s = (.ok rss, t) ∧ Sel.feed m (docItems e d) s' = (.ok rss', t')) ∧
        ∀ ty, ty ≠ 0 → rss.map (·.count ty) = rss'.map (·.count ty) := by
  obtain ⟨a, s, h1, h2, rss, ⟨N, t, h3⟩, h4⟩ := select_texts hse he (ws := us ++ [w] ++ us') (d := d)
    (fun x hx => hw x (by simp at hx ⊢; grind)) (hh.imp id fun hh x hx => hh x (by simp at hx ⊢; grind)) (hq.mono fun x hx => by simp at hx ⊢; grind)
  obtain ⟨a', s', g1, g2, rss', ⟨N', t', g3⟩, g4⟩ := select_texts hse he (ws := us ++ vs ++ us') (d := d)
    (fun x hx => hw x (by simp at hx ⊢; grind)) (hh.imp id fun hh x hx => hh x (by simp at hx ⊢; grind)) (hq.mono fun x hx => by simp at hx ⊢; grind)
  refine ⟨a, s, a', s', h1, h2, g1, g2, max N N', rss, rss', t, t', fun m hm => ⟨h3 m (by omega), g3 m (by omega)⟩, fun ty hty => ?_⟩
  rw [h4 ty hty, g4 ty hty]
  have : vs.flatMap (Written.queries e) = w.queries e := by
    have h5 : ∀ v ∈ vs, v.queries e = [v.path.query e w.type] := by
      intro v hv'
      have : v.path ∈ w.path.picks := by rw [← hv]; exact List.mem_map.2 ⟨v, hv', rfl⟩
      unfold Written.queries
      rw [simple_picks (picks_simple (hw w (by simp)).1.path this), ht v hv']
      rfl
    unfold Written.queries at h5 ⊢
    rw [← hv, List.map_map, List.flatMap_def, List.map_congr_left h5]
    have single : ∀ (l : List Written) (f : Written → Query), (l.map fun a => [f a]).flatten = l.map f := by
      intro l f
      induction l with
      | nil => rfl
      | cons v l ih => simp [ih]
    exact single _ _
  simp only [List.flatMap_append, List.flatMap_cons, List.flatMap_nil, List.append_nil, this]

/-- `/{a,b}/c@{x,y}` and the four expressions it stands for. -/
example : (⟨[⟨some false, some (.alt [[97], [98]]), []⟩, ⟨some false, some (.one [99]), []⟩], .attribute none (some (.alt [[120], [121]]))⟩ : TPath).picks =
    [⟨[⟨some false, some (.one [97]), []⟩, ⟨some false, some (.one [99]), []⟩], .attribute none (some (.one [120]))⟩,
      ⟨[⟨some false, some (.one [98]), []⟩, ⟨some false, some (.one [99]), []⟩], .attribute none (some (.one [120]))⟩,
      ⟨[⟨some false, some (.one [97]), []⟩, ⟨some false, some (.one [99]), []⟩], .attribute none (some (.one [121]))⟩,
      ⟨[⟨some false, some (.one [98]), []⟩, ⟨some false, some (.one [99]), []⟩], .attribute none (some (.one [121]))⟩] := by
  decide

/-- `/a/x` and `/a/e`. -/
def pickedExample : List Written :=
  [⟨⟨[⟨some false, some (.one [97]), []⟩, ⟨some false, some (.one [120]), []⟩], .nothing⟩, codes "/a/x", 1⟩,
    ⟨⟨[⟨some false, some (.one [97]), []⟩, ⟨some false, some (.one [101]), []⟩], .nothing⟩, codes "/a/e", 1⟩]

theorem pickedExample_ok : ∀ w ∈ pickedExample, w.Ok .utf8 .utf8 ∧ w.codes.length < 2000 := by
  have single : ∀ c, IdChar c → Identifier [c] := fun c h => ⟨by simp, by simpa using h⟩
  have ida : IdChar 97 := by unfold IdChar; decide
  have ide : IdChar 101 := by unfold IdChar; decide
  have idx : IdChar 120 := by unfold IdChar; decide
  have nil : Blanks [] := by simp [Blanks]
  have colon : ∀ bs : List Byte, 58 ∉ bs → ∀ i : Nat, ¬ (bs[i]? = some 58 ∧ bs[i + 1]? = some 58) :=
    fun bs h i k => h (List.mem_of_getElem? k.1)
  intro w hw
  simp only [pickedExample, List.mem_cons, List.not_mem_nil, or_false] at hw
  rcases hw with rfl | rfl
  all_goals
    refine ⟨⟨⟨?_, ⟨[47], [], _, rfl, nil, rfl, [97], [], _, rfl, nil, rfl, [47], [], _, rfl, nil, rfl, _, [], [], rfl, nil, rfl, rfl⟩,
      by simp only [Direct]; decide, colon _ (by decide), by decide, by simp, ?_, ?_, by simp, by simp⟩, ?_⟩, by decide⟩
    · simp only [TPath.Ok, TStep.Ok, TEnd.Ok, List.mem_cons, List.not_mem_nil, or_false, forall_eq_or_imp, forall_eq, Option.some.injEq,
        forall_eq', false_implies, implies_true, and_true]
      simp [single, ida, ide, idx, TName.Ok]
    · simp only [Direct]
      decide
    · simp only [Direct]
      decide
    · simp [Written.conds]

/-- `/a/{x , e}` and `/a/x`, `/a/e`, each between `/a@b`, `// e[7]`, `/a()` and `/a[@b="1"]~`. -/
example : ∃ a s a' s', addAll .utf8 .utf8 2000 (writtenExample.map fun w => (w.type, w.bytes .utf8)) [] = (.ok [0, 0, 0, 0, 0], a) ∧
    Sel.mk' a = .ok s ∧
    addAll .utf8 .utf8 2000 ((writtenExample.take 3 ++ pickedExample ++ writtenExample.drop 4).map fun w => (w.type, w.bytes .utf8)) [] =
      (.ok [0, 0, 0, 0, 0, 0], a') ∧ Sel.mk' a' = .ok s' ∧
    ∃ N rss rss' t t', (∀ m, N ≤ m → Sel.feed m (docItems .utf8 grammarExample) s = (.ok rss, t) ∧
        Sel.feed m (docItems .utf8 grammarExample) s' = (.ok rss', t')) ∧
      ∀ ty, ty ≠ 0 → rss.map (·.count ty) = rss'.map (·.count ty) :=
  have mem : ∀ x ∈ writtenExample[3] :: pickedExample ++ writtenExample.take 3 ++ writtenExample.drop 4, x ∈ writtenExample ∨ x ∈ pickedExample := by
    intro x hx
    simp only [List.cons_append, List.mem_cons, List.mem_append] at hx
    rcases hx with rfl | (hx | hx) | hx
    · exact .inl (List.getElem_mem _)
    · exact .inr hx
    · exact .inl (List.mem_of_mem_take hx)
    · exact .inl (List.mem_of_mem_drop hx)
  have inside : ∀ x ∈ writtenExample[3] :: pickedExample ++ writtenExample.take 3 ++ writtenExample.drop 4, x.Inside := by
    intro x hx
    rcases mem x hx with hx | hx
    · exact writtenExample_inside.1 x hx
    · simp only [pickedExample, List.mem_cons, List.not_mem_nil, or_false] at hx
      rcases hx with rfl | rfl <;> exact ⟨by simp, by simp⟩
  have calm : Calm (writtenExample[3] :: pickedExample ++ writtenExample.take 3 ++ writtenExample.drop 4) := by
    rintro ⟨x, hx, nm, h⟩
    rcases mem x hx with hx | hx
    · simp only [writtenExample, List.mem_cons, List.not_mem_nil, or_false] at hx
      rcases hx with rfl | rfl | rfl | rfl | rfl <;> cases h
    · simp only [pickedExample, List.mem_cons, List.not_mem_nil, or_false] at hx
      rcases hx with rfl | rfl <;> cases h
  C76_alternatives_partial (se := .utf8) (e := .utf8) (n := 2000) (fun p h => nomatch h) (.inl rfl)
    (w := writtenExample[3]) (vs := pickedExample) (us := writtenExample.take 3) (us' := writtenExample.drop 4) (by
      intro x hx
      simp only [List.cons_append, List.mem_cons, List.mem_append] at hx
      rcases hx with rfl | (hx | hx) | hx
      · exact writtenExample_ok _ (List.getElem_mem _)
      · exact pickedExample_ok _ hx
      · exact writtenExample_ok _ (List.mem_of_mem_take hx)
      · exact writtenExample_ok _ (List.mem_of_mem_drop hx)) (by decide) (by decide) (.inr inside) calm

end TW
