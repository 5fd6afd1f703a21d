import Verif.Model.NamedList
import Verif.Spec.OrderedMap
namespace Rtti
open Spec

theorem forEach_visits {S A : Type} (f : Callback S A) (as : List A) (s : S) :
    VisitsPrefix f s (forEach f s as) as := by
  induction as generalizing s with
  | nil => exact ⟨0, by simp, by simp [forEach], by simp, by simp, by simp⟩
  | cons a as ih =>
    unfold forEach
    cases hf : f s a with
    | mk s' b =>
      cases b with
      | false =>
        refine ⟨1, by simp, by simp [hf], by omega, ?_, by simp⟩
        intro i x hi hx _
        obtain rfl : i = 0 := by omega
        simp at hx; subst hx; simp [hf]
      | true =>
        obtain ⟨k, hk, h1, h2, h3, h4⟩ := ih s'
        refine ⟨k + 1, by simpa using hk, by simpa [hf] using h1, ?_, ?_, by simp⟩
        · intro i x hi hx
          cases i with
          | zero => simp at hx; subst hx; simp [hf]
          | succ i => simpa [hf] using h2 i x (by omega) (by simpa using hx)
        · intro i x hi hx hl
          cases i with
          | zero =>
            obtain rfl : k = 0 := by omega
            simp [h4 rfl] at hl
          | succ i => simpa [hf] using h3 i x (by omega) (by simpa using hx) (by simpa using hl)

theorem nodup_eraseDups {A : Type} [BEq A] [LawfulBEq A] (l : List A) : l.eraseDups.Nodup := by
  generalize hn : l.length = n
  induction n using Nat.strongRecOn generalizing l with
  | _ n ih =>
    cases l with
    | nil => simp
    | cons a l =>
      rw [List.eraseDups_cons, List.nodup_cons]
      refine ⟨by simp [List.mem_eraseDups], ih _ ?_ _ rfl⟩
      have := List.length_filter_le (fun b => !b == a) l
      simp at hn; omega

namespace NamedList
variable {V : Type}

/-- representation invariant relative to the history of writes -/
structure Rep (l : NamedList V) (h : List (Str × V)) : Prop where
  names_eq : l.items.map (·.1) = definedNames h
  value : ∀ (i : Nat) (p : Str × V), l.items[i]? = some p → lastValue h p.1 = some p.2
  index : ∀ (n : Str) (i : Nat), l.names n = some i ↔ (l.items.map (·.1))[i]? = some n

theorem definedNames_nodup (h : List (Str × V)) : (definedNames h).Nodup := nodup_eraseDups _

theorem mem_definedNames (h : List (Str × V)) (n : Str) :
    n ∈ definedNames h ↔ n ≠ [] ∧ ∃ v, (n, v) ∈ h := by
  simp [definedNames, List.mem_eraseDups, and_comm]

theorem definedNames_snoc (h : List (Str × V)) (n : Str) (v : V) :
    definedNames (h ++ [(n, v)]) =
      if n = [] ∨ n ∈ definedNames h then definedNames h else definedNames h ++ [n] := by
  by_cases hn : n = []
  · simp [definedNames, hn]
  · have e : definedNames (h ++ [(n, v)]) =
        definedNames h ++ ([n].removeAll ((h.map (·.1)).filter (fun n => n ≠ []))).eraseDups := by
      simp [definedNames, hn, ← List.eraseDups_append]
    have m : n ∈ definedNames h ↔ n ∈ ((h.map (·.1)).filter (fun n => n ≠ [])) := by
      simp only [definedNames, List.mem_eraseDups]
    rw [e]
    by_cases hm : n ∈ definedNames h
    · rw [if_pos (Or.inr hm)]
      rw [m] at hm
      simp only [List.removeAll, List.filter_cons, List.filter_nil]
      rw [if_neg (by simpa using hm)]; simp
    · rw [if_neg (by simp [hn, hm])]
      rw [m] at hm
      simp only [List.removeAll, List.filter_cons, List.filter_nil]
      rw [if_pos (by simpa using hm)]; simp [List.eraseDups_cons]

theorem lastValue_snoc (h : List (Str × V)) (n : Str) (v : V) (m : Str) :
    lastValue (h ++ [(n, v)]) m = if m = n then some v else lastValue h m := by
  unfold lastValue
  by_cases e : m = n
  · subst e; simp
  · have : ¬ n = m := fun x => e x.symm
    simp [e, this]

theorem Rep.empty : Rep (NamedList.empty : NamedList V) [] := by
  constructor <;> simp [NamedList.empty, definedNames]

theorem Rep.set {l : NamedList V} {h : List (Str × V)} (r : Rep l h) (n : Str) (v : V) :
    ∃ l', l.set n v = some l' ∧ Rep l' (h ++ [(n, v)]) := by
  unfold NamedList.set
  by_cases hn : n = []
  · refine ⟨l, by simp [hn], ?_, ?_, r.index⟩
    · rw [r.names_eq, definedNames_snoc]; simp [hn]
    · intro i p hp
      rw [lastValue_snoc, if_neg, r.value i p hp]
      intro e
      have : p.1 ∈ definedNames h := by
        rw [← r.names_eq]; exact List.mem_map_of_mem (List.mem_of_getElem? hp)
      rw [mem_definedNames] at this
      exact this.1 (e.trans hn)
  · rw [if_neg hn]
    cases hx : l.names n with
    | none =>
      have hnot : n ∉ definedNames h := by
        rw [← r.names_eq]; intro hm
        obtain ⟨i, hi⟩ := List.mem_iff_getElem?.1 hm
        have := (r.index n i).2 hi
        simp [hx] at this
      refine ⟨_, rfl, ?_, ?_, ?_⟩
      · simp [definedNames_snoc, hn, hnot, r.names_eq]
      · intro i p hp
        rw [List.getElem?_append] at hp
        split at hp
        · rw [lastValue_snoc, if_neg, r.value i p hp]
          intro e; apply hnot
          rw [← r.names_eq, ← e]; exact List.mem_map_of_mem (List.mem_of_getElem? hp)
        · rw [List.getElem?_singleton] at hp
          split at hp
          · simp at hp; subst hp; simp [lastValue_snoc]
          · simp at hp
      · intro m i
        have hm := r.index m i
        have hlen : ∀ j, l.names m = some j → j < l.items.length := by
          intro j hj
          have := (r.index m j).1 hj
          simpa using (List.getElem?_eq_some_iff.1 this).1
        by_cases e : m = n
        · subst e
          simp only [List.map_append, List.length_append, if_true]
          rw [List.getElem?_append]
          split
          · rename_i hlt
            rw [← hm, hx]; simp at hlt ⊢; omega
          · rename_i hlt
            rw [List.map_cons, List.map_nil, List.getElem?_singleton]
            simp at hlt ⊢; omega
        · simp only [if_neg e, List.map_append]
          rw [List.getElem?_append]
          split
          · exact hm
          · rename_i hlt
            rw [List.map_cons, List.map_nil, List.getElem?_singleton]
            constructor
            · intro hi; have := hlen i hi; simp at hlt; omega
            · intro hi; split at hi
              · simp at hi; exact absurd hi.symm e
              · simp at hi
    | some k =>
      have hk := (r.index n k).1 hx
      rw [List.getElem?_map] at hk
      cases hp : l.items[k]? with
      | none => simp [hp] at hk
      | some p =>
        simp [hp] at hk
        have hmem : n ∈ definedNames h := by
          rw [← r.names_eq, ← hk]; exact List.mem_map_of_mem (List.mem_of_getElem? hp)
        have hnames : (l.items.set k (p.1, v)).map (·.1) = l.items.map (·.1) := by
          rw [List.map_set]
          apply List.ext_getElem?
          intro i
          rw [List.getElem?_set]
          split
          · rename_i e; subst e; obtain ⟨h1, h2⟩ := List.getElem?_eq_some_iff.1 hp; simp [h1, h2]
          · rfl
        refine ⟨{ l with items := l.items.set k (p.1, v) }, by simp only [hp], ?_, ?_, ?_⟩
        · rw [hnames, r.names_eq, definedNames_snoc]; simp [hmem]
        · intro i q hq
          simp only at hq
          rw [List.getElem?_set] at hq
          split at hq
          · split at hq
            · simp at hq; subst hq; simp [lastValue_snoc, hk]
            · simp at hq
          · rename_i hne
            rw [lastValue_snoc, if_neg, r.value i q hq]
            intro e
            have h1 : (l.items.map (·.1))[i]? = some n := by simp [hq, e]
            have h2 := (r.index n i).2 h1
            rw [hx] at h2; exact hne (Option.some.inj h2)
        · simp only [hnames]; exact r.index

theorem run_rep {l : NamedList V} {h : List (Str × V)} (r : Rep l h) (h' : List (Str × V)) :
    ∃ l', l.run h' = some l' ∧ Rep l' (h ++ h') := by
  induction h' generalizing l h with
  | nil => exact ⟨l, rfl, by simpa using r⟩
  | cons p h' ih =>
    obtain ⟨n, v⟩ := p
    obtain ⟨l1, e1, r1⟩ := r.set n v
    obtain ⟨l2, e2, r2⟩ := ih r1
    exact ⟨l2, by simp [NamedList.run, e1, e2], by simpa using r2⟩

end NamedList
end Rtti
