import Verif.Lemmas.IndexLoop
import Verif.Props.Items
/-
C92: loops by index while other threads define.
-/
set_option autoImplicit false
namespace Rtti.Props
open Spec IndexLoop

/-- C92: a loop over members by index, on a list made by any additions `h`, with any additions of other
    threads between any two of its calls. What it has seen is, at every moment, the first members in the
    order they were accepted: never null, none twice, none left out. -/
theorem C92_members (h : List (Option Item)) (es : List Ev) :
    ∃ its bs, Accepted (h ++ additions es) its bs ∧
      let s := (walk (ItemList.empty.run h).1).run es
      s.seen = (its.take s.seen.length).map some ∧ s.seen.length ≤ its.length ∧ s.seen.Nodup ∧ none ∉ s.seen := by
  have i := Inv.of h es
  have w := ItemList.run_wf (h ++ additions es) .empty
  have hi : ((walk (ItemList.empty.run h).1).run es).list.items = (ItemList.empty.run (h ++ additions es)).1.items := by rw [i.list]
  refine ⟨_, _, C15_accepts_iff_new _, ?_⟩
  have h1 := i.seen
  have h2 := i.le
  rw [hi] at h1 h2
  refine ⟨h1, h2, ?_, ?_⟩
  · rw [h1]
    have : (ItemList.empty.run (h ++ additions es)).1.items.Nodup := by
      have := w.nodupPtr
      exact (List.pairwise_map.1 this).imp fun hn e => hn (by rw [e])
    exact List.pairwise_map.2 ((this.sublist (List.take_sublist _ _)).imp fun hn e => hn (Option.some.inj e))
  · rw [h1]
    intro hm
    obtain ⟨x, -, e⟩ := List.mem_map.1 hm
    cases e

/-- C92: when the loop over members has ended, it has seen exactly the members there were at one moment
    during the loop, so all that were there when it began. -/
theorem C92_members_end (h : List (Option Item)) (es : List Ev)
    (hd : ((walk (ItemList.empty.run h).1).run es).pc = .done) :
    ∃ past future its bs, es = past ++ .me :: future ∧ Accepted (h ++ additions past) its bs ∧
      ((walk (ItemList.empty.run h).1).run es).seen = its.map some := by
  obtain ⟨p, q, a, b⟩ := (Inv.of h es).done hd
  exact ⟨p, q, _, _, a, C15_accepts_iff_new _, b⟩

/-- C92: the loop over members ends: with `n` members accepted in all, after at most `2 n + 1` of its own
    steps, however the others run. -/
theorem C92_members_ends (h : List (Option Item)) (es : List Ev) :
    ∃ its bs, Accepted (h ++ additions es) its bs ∧
      (2 * its.length < turns es → ((walk (ItemList.empty.run h).1).run es).pc = .done) := by
  have i := Inv.of h es
  refine ⟨_, _, C15_accepts_iff_new _, fun ht => ?_⟩
  rw [← i.list] at ht
  generalize (walk (ItemList.empty.run h).1).run es = s at *
  cases hp : s.pc with
  | test k => obtain ⟨a, b⟩ := i.test k hp; have := i.le; omega
  | fetch k => obtain ⟨a, b, c⟩ := i.fetch k hp; omega
  | done => rfl

-- two members, a third is added while the loop runs; a second `b` and a null are refused
example : let s := (walk (ItemList.empty.run [some ⟨1, ['a']⟩, some ⟨2, ['b']⟩]).1).run [.me, .me, .me, .add (some ⟨3, ['c']⟩), .me,
      .add none, .me, .add (some ⟨4, ['b']⟩), .me, .me, .add (some ⟨5, ['d']⟩)]
    s.pc = .done ∧ s.seen = [some ⟨1, ['a']⟩, some ⟨2, ['b']⟩, some ⟨3, ['c']⟩] ∧ s.list.size = 4 := by decide
example : 2 * 1 < turns [.me, .add (some ⟨1, ['a']⟩), .me, .me] ∧
    ((walk (ItemList.empty.run []).1).run [.me, .add (some ⟨1, ['a']⟩), .me, .me]).pc = .done := by decide

variable {V : Type}

/-- C92: a loop over attributes by index, with any writes of other threads between any two of its calls.
    The names seen are at every moment the first names in the order of their first definition; each value
    is the one last written under its name at the moment it was read, which is the third call of its round. -/
theorem C92_attributes (emptyV : V) (h : List (Str × V)) (l : NamedList V) (hl : NamedList.empty.run h = some l) (es : List (AEv V)) :
    let s := (awalk l).run emptyV es
    s.seen.map (·.1) = (definedNames (h ++ writes es)).take s.seen.length ∧
    (∀ (k : Nat) (n : Str) (v : V), s.seen[k]? = some (n, v) →
      ∃ past future, es = past ++ .me :: future ∧ aturns past = 3 * k + 2 ∧ lastValue (h ++ writes past) n = some v) ∧
    (s.pc = .done → ∃ past future, es = past ++ .me :: future ∧ s.seen.map (·.1) = definedNames (h ++ writes past)) ∧
    (3 * (definedNames (h ++ writes es)).length < aturns es → s.pc = .done) := by
  obtain ⟨l', e, r⟩ := NamedList.run_rep (V := V) .empty h
  obtain rfl : l' = l := Option.some.inj (e.symm.trans hl)
  have i := (AInv.start r).run (emptyV := emptyV) es
  simp only [List.nil_append] at i r
  refine ⟨i.names, i.values, i.done, fun ht => ?_⟩
  generalize (awalk l').run emptyV es = s at *
  cases hp : s.pc with
  | test k => obtain ⟨a, b⟩ := i.test k hp; have := i.le; omega
  | name k => obtain ⟨a, b, c⟩ := i.name k hp; omega
  | value k n => obtain ⟨a, b, c⟩ := i.value k n hp; have := (List.getElem?_eq_some_iff.1 c).1; omega
  | done => rfl

/-- C92, the limit of the claim: the values seen need never have been there together. Another thread first
    writes `a` and then `b`; the loop sees the old `a` and the new `b`. -/
theorem C92_one_moment_false : ∃ (h : List (Str × Nat)) (l : NamedList Nat) (es : List (AEv Nat)),
    NamedList.empty.run h = some l ∧ ((awalk l).run 9 es).pc = .done ∧
    ∀ past future, es = past ++ future → ¬ ∀ n v, (n, v) ∈ ((awalk l).run 9 es).seen → lastValue (h ++ writes past) n = some v := by
  refine ⟨[(['a'], 0), (['b'], 0)], _, [.me, .me, .me, .set ['a'] 1, .set ['b'] 1, .me, .me, .me, .me], rfl, by decide, ?_⟩
  have hs : ((awalk (⟨[(['a'], 0), (['b'], 0)], fun n => if n = ['b'] then some 1 else if n = ['a'] then some 0 else none⟩ : NamedList Nat)).run 9
      [.me, .me, .me, .set ['a'] 1, .set ['b'] 1, .me, .me, .me, .me]).seen = [(['a'], 0), (['b'], 1)] := by decide
  intro past future e hall
  have ha := hall ['a'] 0 (by show _ ∈ ((awalk (⟨[(['a'], 0), (['b'], 0)], fun n => if n = ['b'] then some 1 else if n = ['a'] then some 0 else none⟩ : NamedList Nat)).run 9 _).seen; rw [hs]; simp)
  have hb := hall ['b'] 1 (by show _ ∈ ((awalk (⟨[(['a'], 0), (['b'], 0)], fun n => if n = ['b'] then some 1 else if n = ['a'] then some 0 else none⟩ : NamedList Nat)).run 9 _).seen; rw [hs]; simp)
  have hp : past = [AEv.me, .me, .me, .set ['a'] 1, .set ['b'] 1, .me, .me, .me, .me].take past.length := by rw [e]; simp
  have hle : past.length ≤ 9 := by have := congrArg List.length e; simp at this; omega
  rw [hp] at ha hb
  generalize past.length = m at *
  have : ∀ m ≤ 9, ¬ (lastValue ([(['a'], 0), (['b'], 0)] ++ writes (([AEv.me, .me, .me, .set ['a'] 1, .set ['b'] 1, .me, .me, .me, .me] : List (AEv Nat)).take m)) ['a'] = some 0 ∧
      lastValue ([(['a'], 0), (['b'], 0)] ++ writes (([AEv.me, .me, .me, .set ['a'] 1, .set ['b'] 1, .me, .me, .me, .me] : List (AEv Nat)).take m)) ['b'] = some 1) := by decide
  exact this m hle ⟨ha, hb⟩

-- an attribute is changed after its value was read, one is added while the loop runs
example : ∃ l, NamedList.empty.run [(['a'], 1), (['b'], 2), (['a'], 3)] = some l ∧
    let s := (awalk l).run 0 [.me, .me, .set ['a'] 4, .me, .set ['a'] 5, .me, .me, .me, .set ['c'] 6, .me, .me, .me, .me]
    s.pc = .done ∧ s.seen = [(['a'], 4), (['b'], 2), (['c'], 6)] := ⟨_, rfl, by decide⟩

end Rtti.Props
