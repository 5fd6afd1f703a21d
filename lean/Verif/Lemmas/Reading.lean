import Verif.Spec.Reading
import Verif.Lemmas.VariantExact
import Verif.Lemmas.Value
/-! Helper lemmas for C78. -/
set_option autoImplicit false
namespace Rtti.Reading
open VMem Val

theorem good_overwrite {P : Prog} {s : State} (g : Good P s) {id t v v' : Nat} (h : s.mem.objs id = some ⟨t, v⟩) :
    Good P (overwrite s id t v') := by
  have obj : ∀ i o, (overwrite s id t v').mem.objs i = some o → ∃ o', s.mem.objs i = some o' ∧ o'.type = o.type := by
    intro i o e
    by_cases hi : i = id
    · subst hi; simp [overwrite, upd] at e; subst e; exact ⟨_, h, rfl⟩
    · simp only [overwrite, upd_ne _ _ hi] at e; exact ⟨o, e, rfl⟩
  have keep : ∀ i t' w, s.mem.objs i = some ⟨t', w⟩ → ∃ w', (overwrite s id t v').mem.objs i = some ⟨t', w'⟩ := by
    intro i t' w e
    by_cases hi : i = id
    · subst hi; rw [h] at e; cases e; exact ⟨v', by simp [overwrite, upd]⟩
    · exact ⟨w, by simp only [overwrite, upd_ne _ _ hi]; exact e⟩
  constructor
  · intro i o e; obtain ⟨o', e', _⟩ := obj i o e; exact g.olt i o' e'
  · exact g.blt
  · exact g.clt
  · intro k t' c hk hp
    obtain ⟨i, w, hc, ho⟩ := g.small k t' c hk hp
    obtain ⟨w', hw⟩ := keep i t' w ho
    exact ⟨i, w', hc, hw⟩
  · intro k t' c hk hp
    obtain ⟨b, i, w, hc, hb, ho⟩ := g.big k t' c hk hp
    obtain ⟨w', hw⟩ := keep i t' w ho
    exact ⟨b, i, w', hc, hb, hw⟩
  · exact g.refs
  · exact g.uo
  · exact g.ubl
  · exact g.uc
  · exact g.ux
  · intro i t' w e hp
    obtain ⟨⟨t'', w'⟩, e', ht⟩ := obj i _ e
    dsimp only at ht; subst ht
    exact g.home i t'' w' e' hp

theorem Reach.good {P : Prog} {L : Layout} {s : State} (r : Reach P L s) : Good P s ∧ s.env none = none := by
  induction r with
  | init => exact ⟨Good.init P, rfl⟩
  | done c _ h ih =>
    rcases exec_exact ih.1 ih.2 c with ⟨s', e, g', h', -⟩ | ⟨m', e, -, hl⟩ | ⟨s', e, -⟩ | ⟨s', e, -⟩ <;> rw [e] at h ⊢
    · exact ⟨g', h'⟩
    all_goals cases h
  | threw c _ h ih =>
    rcases exec_exact ih.1 ih.2 c with ⟨s', e, g', h', -⟩ | ⟨m', e, -, hl⟩ | ⟨s', e, -⟩ | ⟨s', e, -⟩ <;> rw [e] at h ⊢
    · cases h
    · exact ⟨Inv.lost ih.1 hl, ih.2⟩
    all_goals cases h
  | wrote _ w ih =>
    cases w with
    | mk _ _ _ _ _ ho => exact ⟨good_overwrite ih.1 ho, ih.2⟩

theorem reach_run {P : Prog} {L : Layout} (cs : List Cmd) : ∀ {s : State}, Reach P L s → (run P cs s).1 = .ok () →
    Reach P L (run P cs s).2 := by
  induction cs with
  | nil => intro s r _; exact r
  | cons c cs ih =>
    intro s r h
    unfold run at h ⊢
    cases e : exec P c s with
    | mk o s' =>
      rw [e] at h
      have e1 : (exec P c s).1 = o := by rw [e]
      have e2 : (exec P c s).2 = s' := by rw [e]
      cases o with
      | ok a => exact ih (e2 ▸ r.done c e1) h
      | threw => exact ih (e2 ▸ r.threw c e1) h
      | terminated => cases h
      | ub => cases h

/-- an object has one owner and one address -/
theorem owns_unique {P : Prog} {L : Layout} {s : State} (g : Good P s) {x y id : Nat} {a b : Addr}
    (h : Owns L s x a id) (h' : Owns L s y b id) : x = y ∧ a = b := by
  cases h with
  | inside e =>
    cases h' with
    | inside e' => have := g.uo _ _ _ _ _ e e'; cases this; exact ⟨rfl, rfl⟩
    | onHeap e' hb => exact absurd hb (g.ux _ _ _ _ e)
  | onHeap e hb =>
    cases h' with
    | inside e' => exact absurd hb (g.ux _ _ _ _ e')
    | onHeap e' hb' =>
      have := g.uc _ _ _ hb hb'; subst this
      have := g.ubl _ _ _ _ _ e e'; cases this
      exact ⟨rfl, rfl⟩

/-- at an address there is one object -/
theorem owns_at {P : Prog} {L : Layout} (hL : L.Of P) {s : State} (g : Good P s) {x y id id' : Nat} {a : Addr}
    (h : Owns L s x a id) (h' : Owns L s y a id') : x = y ∧ id = id' := by
  generalize hb : a = b at h'
  cases h with
  | inside e =>
    cases h' with
    | inside e' =>
      have := hL.varInj _ _ hb; subst this
      rw [e] at e'; cases e'; exact ⟨rfl, rfl⟩
    | onHeap => exact absurd hb (hL.apart _ _)
  | onHeap e hm =>
    cases h' with
    | inside e' => exact absurd hb.symm (hL.apart _ _)
    | onHeap e' hm' =>
      have := hL.heapInj _ _ hb; subst this
      rw [hm] at hm'; cases hm'
      have := g.ubl _ _ _ _ _ e e'; cases this
      exact ⟨rfl, rfl⟩

/-- what a variant with a value owns -/
theorem owns_of_val {P : Prog} {L : Layout} (hL : L.Of P) {s : State} (g : Good P s) {x t v : Nat} {u : Var}
    (e : s.env (some x) = some u) (h : view s x = some (.val t v)) :
    u.mgr = .own t ∧ ∃ a id, Owns L s x a id ∧ s.mem.objs id = some ⟨t, v⟩ ∧ Stands (seen L s.mem x u) (kept (L.ty t)) a := by
  obtain ⟨g', c⟩ := u
  cases g' with
  | void => simp [view, e, content] at h
  | ref t' => obtain ⟨a, rfl⟩ := g.refs _ _ _ e; simp [view, e, content] at h
  | own t' =>
    by_cases hp : (P.ty t').place = .small
    · obtain ⟨id, w, rfl, ho⟩ := g.small _ _ _ e hp
      simp [view, e, content, ho] at h
      obtain ⟨rfl, rfl⟩ := h
      obtain ⟨h1, h2⟩ := (hL.small t').1 hp
      exact ⟨rfl, _, id, .inside e, ho, kept_of ((not_arr_iff _).1 h1) ▸ .inPlace _ rfl h1 h2⟩
    · obtain ⟨b, id, w, rfl, hb, ho⟩ := g.big _ _ _ e hp
      simp [view, e, content, hb, ho] at h
      obtain ⟨rfl, rfl⟩ := h
      refine ⟨rfl, _, id, .onHeap e hb, ho, ?_⟩
      by_cases ha : ∃ n el, L.ty t' = .arr n el
      · obtain ⟨n, el, ha⟩ := ha
        rw [ha]
        exact .array n el (by simp [seen, heldBy, ha])
      · have ha' : ∀ n el, L.ty t' ≠ .arr n el := fun n el h => ha ⟨n, el, h⟩
        rw [kept_of ((not_arr_iff _).1 ha')]
        refine .heap _ rfl ha' ?_
        exact Nat.lt_of_not_le fun h => hp ((hL.small t').2 ⟨ha', h⟩)

theorem view_overwrite {P : Prog} {L : Layout} {s : State} (g : Good P s) {y id t w v : Nat} {a : Addr}
    (ho : s.mem.objs id = some ⟨t, w⟩) (hy : Owns L s y a id) :
    view s y = some (.val t w) ∧ view (overwrite s id t v) = upd (view s) y (some (.val t v)) := by
  have ty : ∀ {x t' c}, s.env (some x) = some ⟨.own t', c⟩ → (c = .obj id ∨ ∃ b, c = .block b ∧ s.mem.blocks b = some (some id)) → t' = t := by
    intro x t' c e hc
    obtain ⟨i, w', hi, _, hl⟩ := g.located e
    have := hl s.mem (fun _ _ h => h)
    by_cases hp : (P.ty t').place = .small
    · rcases hc with rfl | ⟨b, rfl, hb⟩
      · simp [locate, hp, pure, M.pure] at this
        subst this; rw [ho] at hi; cases hi; rfl
      · obtain ⟨_, _, h, _⟩ := g.small _ _ _ e hp; cases h
    · obtain ⟨b', i', w'', h, hb', ho'⟩ := g.big _ _ _ e hp
      rcases hc with rfl | ⟨b, rfl, hb⟩
      · cases h
      · cases h; rw [hb] at hb'; cases hb'; rw [ho] at ho'; cases ho'; rfl
  constructor
  · cases hy with
    | inside e => have := ty e (.inl rfl); subst this; simp [view, e, content, ho]
    | onHeap e hb => have := ty e (.inr ⟨_, rfl, hb⟩); subst this; simp [view, e, content, hb, ho]
  · funext x
    by_cases hx : x = y
    · subst hx
      rw [upd_same]
      cases hy with
      | inside e => have := ty e (.inl rfl); subst this; simp [view, overwrite, e, content, upd]
      | onHeap e hb => have := ty e (.inr ⟨_, rfl, hb⟩); subst this; simp [view, overwrite, e, content, hb, upd]
    · rw [upd_ne _ _ hx]
      cases e : s.env (some x) with
      | none => simp [view, overwrite, e]
      | some u =>
        have hne : ∀ i b, Owns L s x b i → i ≠ id := by
          rintro i b h rfl
          exact hx (owns_unique g h hy).1
        obtain ⟨m, c⟩ := u
        cases m with
        | void => simp [view, overwrite, e, content]
        | ref t' => cases c <;> simp [view, overwrite, e, content]
        | own t' =>
          cases c with
          | obj i =>
            have := hne i _ (.inside e)
            simp [view, overwrite, e, content, upd_ne _ _ this]
          | block b =>
            cases hb : s.mem.blocks b with
            | none => simp [view, overwrite, e, content, hb]
            | some q =>
              cases q with
              | none => simp [view, overwrite, e, content, hb]
              | some i =>
                have := hne i _ (.onHeap e hb)
                simp [view, overwrite, e, content, hb, upd_ne _ _ this]
          | _ => simp [view, overwrite, e, content]

end Rtti.Reading
