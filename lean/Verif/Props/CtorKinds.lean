import Verif.Props.Builder
/-! C52: exactly when a look-up of a special constructor stays null. -/
set_option autoImplicit false
namespace Rtti.Props
open Rtti Spec World Builder

/-- the constructor is no special one: it has a parameter, and not just one of the class itself -/
def Plain (x : Ctor) : Prop := x.args ≠ [] ∧ ∀ a, x.args = [a] → a.self = false

/-- the text up to the first parenthesis, if any, is `s` -/
def Opens (s n : Str) : Prop := n = s ∨ ∃ r, n = s ++ '(' :: r

private theorem denotes_text {q : Str} (hq : '(' ∉ q) (hc : ¬Opens q ctorSig) (hne : q ≠ []) (n : Str) (as : List Str) :
    Denotes q (signatureText (ctorName n) as) ↔ Opens q n := by
  obtain ⟨r, hr⟩ := signatureText_paren (ctorName n) as
  rw [hr]
  have hnq : ∀ m : Str, Denotes q (m ++ '(' :: r) ↔ Opens q m := by
    intro m
    constructor
    · rintro (h | ⟨r', h, _⟩)
      · exact absurd (h ▸ by simp : '(' ∈ q) hq
      · by_cases hm : '(' ∈ m
        · obtain ⟨a, b, rfl, ha⟩ := List.eq_append_cons_of_mem hm
          rw [List.append_assoc, List.cons_append] at h
          exact .inr ⟨b, by rw [(name_split ha hq h).1]⟩
        · exact .inl (name_split hm hq h).1
    · rintro (rfl | ⟨r', rfl⟩)
      · exact .inr ⟨r, rfl, hq⟩
      · exact .inr ⟨r' ++ '(' :: r, by simp, hq⟩
  rw [hnq]
  unfold ctorName
  split
  · rename_i h
    subst h
    refine ⟨fun h => absurd h hc, fun h => ?_⟩
    rcases h with h | ⟨r, h⟩
    · exact absurd h.symm hne
    · simp at h
  · rfl

/-- C52: a special constructor that a class lacks is found after further constructors are registered exactly if one of them is of that kind, or is
    given the reserved name (alone or followed by a parenthesis). -/
theorem C52_null_exact {rank} {w : World} (h : Reachable rank w) {c : Ptr} (hc : w.isContainer c = true) (cs : List Ctor) :
    ∃ w', w.defineConstructors c cs = (w', .val ()) ∧
      (w.defaultConstructor c = .val none →
        (w'.defaultConstructor c = .val none ↔ ∀ x ∈ cs, x.args ≠ [] ∧ ¬(Plain x ∧ Opens defaultSig x.name))) ∧
      (w.copyConstructor c = .val none →
        (w'.copyConstructor c = .val none ↔
          ∀ x ∈ cs, (∀ a, x.args = [a] → a.self = true → a.rvalue = true) ∧ ¬(Plain x ∧ Opens copySig x.name))) ∧
      (w.moveConstructor c = .val none →
        (w'.moveConstructor c = .val none ↔
          ∀ x ∈ cs, (∀ a, x.args = [a] → a.self = true → a.rvalue = false) ∧ ¬(Plain x ∧ Opens moveSig x.name))) := by
  obtain ⟨w', e, _, _, _, _, hn⟩ := define_many h hc cs
  have hpre : ∀ q : Str, q = defaultSig ∨ q = copySig ∨ q = moveSig → '(' ∉ q ∧ q ≠ [] ∧ ¬Opens q ctorSig := by
    have key : ∀ q : Str, ctorSig.take 1 ≠ q.take 1 → q ≠ [] → ¬Opens q ctorSig := by
      rintro q h hne (h' | ⟨r, h'⟩)
      · exact h (by rw [h'])
      · apply h
        rw [h']
        cases q with
        | nil => exact absurd rfl hne
        | cons a q => rfl
    rintro q (rfl | rfl | rfl)
    · exact ⟨by decide, by decide, key _ (by decide) (by decide)⟩
    · refine ⟨by decide, by decide, ?_⟩
      rintro (h' | ⟨r, h'⟩)
      · exact absurd h' (by decide)
      · have := congrArg (List.take 2) h'
        have h2 : ['c', 'o'] = ['c', '_'] := this
        exact absurd h2 (by decide)
    · exact ⟨by decide, by decide, key _ (by decide) (by decide)⟩
  have htext : ∀ q : Str, q = defaultSig ∨ q = copySig ∨ q = moveSig → ∀ x : Ctor, Plain x → (Denotes q (ctorSignature x) ↔ Opens q x.name) := by
    intro q hq x hx
    obtain ⟨h1, h2, h3⟩ := hpre q hq
    have : ctorSignature x = signatureText (ctorName x.name) (x.args.map (·.text)) := by
      obtain ⟨hx1, hx2⟩ := hx
      unfold ctorSignature
      match ha : x.args with
      | [] => exact absurd ha hx1
      | [a] => simp [hx2 a ha]
      | a :: b :: as => rfl
    rw [this]
    exact denotes_text h1 h3 h2 _ _
  have hspec : ∀ {q s : Str}, '(' ∉ s → (Denotes q s ↔ q = s) := by
    intro q s hs
    constructor
    · rintro (h | ⟨r, h, _⟩)
      · exact h.symm
      · exact absurd (h ▸ by simp : '(' ∈ s) hs
    · rintro rfl; exact .inl rfl
  have hd : '(' ∉ defaultSig := by decide
  have hcp : '(' ∉ copySig := by decide
  have hm : '(' ∉ moveSig := by decide
  have hcases : ∀ x : Ctor, (x.args = [] ∧ ctorSignature x = defaultSig) ∨
      (∃ a, x.args = [a] ∧ a.self = true ∧ a.rvalue = false ∧ ctorSignature x = copySig) ∨
      (∃ a, x.args = [a] ∧ a.self = true ∧ a.rvalue = true ∧ ctorSignature x = moveSig) ∨ Plain x := by
    intro x
    unfold ctorSignature Plain
    match hx : x.args with
    | [] => exact .inl ⟨rfl, rfl⟩
    | [a] =>
      cases h1 : a.self with
      | false => exact .inr (.inr (.inr ⟨by simp, fun b hb => by cases hb; exact h1⟩))
      | true => cases h2 : a.rvalue <;> simp [h1, h2]
    | a :: b :: as => exact .inr (.inr (.inr ⟨by simp, fun _ h => by cases h⟩))
  refine ⟨w', e, fun h0 => ?_, fun h0 => ?_, fun h0 => ?_⟩
  · unfold defaultConstructor at *
    rw [hn]
    simp only [h0, true_and]
    refine forall_congr' fun x => forall_congr' fun _ => ?_
    rcases hcases x with ⟨h1, h2⟩ | ⟨a, h1, h2, h3, h4⟩ | ⟨a, h1, h2, h3, h4⟩ | hp
    · rw [h2, hspec hd]; simp [h1]
    · rw [h4, hspec hcp]; simp [h1, Plain, h2]; decide
    · rw [h4, hspec hm]; simp [h1, Plain, h2]; decide
    · rw [htext _ (.inl rfl) x hp]; simp [hp, hp.1]
  · unfold copyConstructor at *
    rw [hn]
    simp only [h0, true_and]
    refine forall_congr' fun x => forall_congr' fun _ => ?_
    rcases hcases x with ⟨h1, h2⟩ | ⟨a, h1, h2, h3, h4⟩ | ⟨a, h1, h2, h3, h4⟩ | hp
    · rw [h2, hspec hd]; simp [h1, Plain]; decide
    · rw [h4, hspec hcp]; simp [h1, Plain, h2, h3]
    · rw [h4, hspec hm]; simp [h1, Plain, h2, h3]; decide
    · rw [htext _ (.inr (.inl rfl)) x hp]
      have : ∀ a, x.args = [a] → a.self = true → a.rvalue = true := fun a ha hs => by rw [hp.2 a ha] at hs; cases hs
      simp only [hp, true_and]
      exact ⟨fun h => ⟨this, h⟩, fun h => h.2⟩
  · unfold moveConstructor at *
    rw [hn]
    simp only [h0, true_and]
    refine forall_congr' fun x => forall_congr' fun _ => ?_
    rcases hcases x with ⟨h1, h2⟩ | ⟨a, h1, h2, h3, h4⟩ | ⟨a, h1, h2, h3, h4⟩ | hp
    · rw [h2, hspec hd]; simp [h1, Plain]; decide
    · rw [h4, hspec hcp]; simp [h1, Plain, h2, h3]; decide
    · rw [h4, hspec hm]; simp [h1, Plain, h2, h3]
    · rw [htext _ (.inr (.inr rfl)) x hp]
      have : ∀ a, x.args = [a] → a.self = true → a.rvalue = false := fun a ha hs => by rw [hp.2 a ha] at hs; cases hs
      simp only [hp, true_and]
      exact ⟨fun h => ⟨this, h⟩, fun h => h.2⟩

-- a constructor of one `int` that is given the name of the default constructor
example : Opens defaultSig "d_constructor(x".toList ∧ Plain ⟨defaultSig, [⟨"int".toList, false, false⟩]⟩ :=
  ⟨.inr ⟨['x'], by decide⟩, by simp, fun a h => by cases h; rfl⟩

end Rtti.Props
