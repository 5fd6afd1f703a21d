import Verif.Lemmas.LazyQuiet
import Verif.Lemmas.LazyMore
import Verif.Lemmas.NamedList
/-
Attributes in programs with lazy definitions, and queries when nothing is pending.
-/
set_option autoImplicit false
namespace Rtti.Lazy
open LM NamedList Spec

def Attrs (s : LW) : Prop := ∀ p, ∃ h, Rep (s.attrs p) h
def AttrsQ (s s' : LW) : Prop := Attrs s → Attrs s'

theorem attrs_look : QLook AttrsQ where
  refl _ h := h
  trans h h' i := h' (h i)
  iter h := h

theorem attrs_execs {chk : Nat → LM Unit} (hc : ∀ p, (io AttrsQ attrs_look).K (chk p) (chk p)) (fuel : Nat) (cs : List Cmd) :
    (io AttrsQ attrs_look).K (execs chk fuel cs) (execs chk fuel cs) := by
  refine (io AttrsQ attrs_look).execs (P := fun _ => True)
    ((io AttrsQ attrs_look).leaf hc (.inl rfl) (fun o _ => ?_) (fun p n v _ => ?_) (fun p b _ => ?_)) cs (Cmds.all_true cs)
  · refine (io AttrsQ attrs_look).op hc (.inl rfl) o (fun t _ s h => h) (fun _ _ _ _ _ _ h => h) (fun _ _ _ _ _ h => h) ?_
    rintro p t c rfl s
    unfold Lazy.op
    dsimp only
    split
    · exact attrs_look.refl s
    · exact fun h => h
  · intro s h
    unfold setAttr
    obtain ⟨l, hl⟩ := h p
    obtain ⟨l', e, r⟩ := hl.set n v
    rw [e]
    intro q
    dsimp only [upd]
    by_cases hq : q = p
    · simp only [hq, if_true]; exact ⟨_, r⟩
    · simp only [hq, if_false]; exact h q
  · intro s
    unfold install
    split
    · exact attrs_look.refl s
    · split <;> exact attrs_look.refl s

theorem attrs_check (fuel p : Nat) : (io AttrsQ attrs_look).K (check fuel p) (check fuel p) := by
  induction fuel generalizing p with
  | zero => exact fun s => attrs_look.refl s
  | succ fuel ih =>
    intro s
    cases hp : s.pending p with
    | none => rw [check_idle (.inl hp)]; exact attrs_look.refl s
    | some body =>
      cases hr : s.running p with
      | true => rw [check_idle (.inr hr)]; exact attrs_look.refl s
      | false =>
        rw [check_run hp hr]
        exact attrs_execs ih fuel body (begin_ s p body)

theorem attrs_run (fuel : Nat) (cs : List Cmd) : Attrs (run fuel cs init).1 :=
  attrs_execs (attrs_check fuel) fuel cs init fun _ => ⟨[], Rep.empty⟩

theorem attrOf_find {l : NamedList Nat} {h : List (Str × Nat)} (r : Rep l h) (n : Str) :
    attrOf l n = (l.items.find? (·.1 = n)).map (·.2) := by
  have hnd : (l.items.map (·.1)).Nodup := by rw [r.names_eq]; exact definedNames_nodup h
  unfold attrOf
  by_cases hn : n = []
  · rw [if_pos hn]
    cases hf : l.items.find? (·.1 = n) with
    | none => rfl
    | some x =>
      have h1 := List.mem_of_find?_eq_some hf
      have h2 : x.1 = n := by simpa using List.find?_some hf
      have : x.1 ∈ definedNames h := by rw [← r.names_eq]; exact List.mem_map_of_mem h1
      exact absurd (h2.trans hn) ((mem_definedNames h x.1).1 this).1
  · rw [if_neg hn]
    cases hi : l.names n with
    | none =>
      dsimp only
      cases hf : l.items.find? (·.1 = n) with
      | none => rfl
      | some x =>
        have h1 := List.mem_of_find?_eq_some hf
        have h2 : x.1 = n := by simpa using List.find?_some hf
        have : n ∈ l.items.map (·.1) := by rw [← h2]; exact List.mem_map_of_mem h1
        obtain ⟨i, hi'⟩ := List.mem_iff_getElem?.1 this
        rw [(r.index n i).2 hi'] at hi
        cases hi
    | some i =>
      dsimp only
      have h1 := (r.index n i).1 hi
      rw [List.getElem?_map] at h1
      cases hx : l.items[i]? with
      | none => rw [hx] at h1; cases h1
      | some x =>
        rw [hx] at h1
        have hxn : x.1 = n := by simpa using h1
        have hm : x ∈ l.items := List.mem_of_getElem? hx
        cases hf : l.items.find? (·.1 = n) with
        | none =>
          have := List.find?_eq_none.1 hf x hm
          simp [hxn] at this
        | some y =>
          have h1 := List.mem_of_find?_eq_some hf
          have h2 : y.1 = n := by simpa using List.find?_some hf
          obtain ⟨j, hj⟩ := List.mem_iff_getElem?.1 h1
          have h3 : (l.items.map (·.1))[j]? = some n := by rw [List.getElem?_map, hj]; simp [h2]
          have := (r.index n j).2 h3
          rw [hi] at this
          cases this
          rw [hx] at hj
          cases hj
          rfl

end Rtti.Lazy
