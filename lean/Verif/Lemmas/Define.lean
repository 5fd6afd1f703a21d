import Verif.Lemmas.Create
import Verif.Spec.Create
namespace Rtti
open Spec
namespace World

theorem Inv.createdObject {rank} {w : World} (i : Inv rank w) (o : Ptr) (ho : w.isContainer o = true)
    (k : Cat) (n : Str) (t : TypeId) (h : ∀ x ∈ (w.cont o k).items, x.name ≠ n) :
    CreatedObject w (w.created o k n t) o k n w.next := by
  have hr := i.add_succeeds o ho k n t h
  obtain ⟨hit, _, _⟩ := i.created_facts o ho k n t hr
  constructor
  · exact i.kind_next
  · rw [created_kind]; simp
  · rw [created_name]; simp
  · rw [created_owner]; simp
  · rw [hit]; simp
  · intro k'
    rw [hit, if_neg, if_pos rfl]
    rintro ⟨e, _⟩
    exact i.container_ne_next ho e.symm
  · intro c k' hc hne
    rw [hit, if_neg, if_neg (i.container_ne_next hc)]
    rintro ⟨rfl, rfl⟩; simp at hne
  · intro q hq
    rw [created_kind, created_name, created_owner, created_cls]
    simp [upd_ne _ _ hq]

theorem Inv.getOrCreate_once {rank} {w : World} (i : Inv rank w) (o : Ptr) (ho : w.isContainer o = true)
    (k : Cat) (n : Str) (t : TypeId) (look : World → Res (Option Ptr)) (stored : World → Ptr → World)
    (hst : stored ((w.alloc k n o t).addItem o k ⟨w.next, n⟩).1 w.next = w.created o k n t)
    (hval : ∃ r, look w = .val r)
    (hnone : look w = .val none → ∀ x ∈ (w.cont o k).items, x.name ≠ n)
    (hlook : look w = .val none → look (w.created o k n t) = .val (some w.next)) :
    DefinesOnce w (w.getOrCreate o k n t look stored).1 (w.getOrCreate o k n t look stored).2 look o k n := by
  rcases getOrCreate_cases w o k n t look stored hst with ⟨h1, h⟩ | ⟨h1, h2, h⟩ | ⟨h1, h2, h⟩
  · left
    obtain ⟨r, hr⟩ := hval
    cases r with
    | none => exact absurd hr h1
    | some p => exact ⟨p, hr, by rw [h]; exact hr, by rw [h]⟩
  · right
    exact ⟨h1, w.next, by rw [h], by rw [h]; exact i.createdObject o ho k n t (hnone h1), by rw [h]; exact hlook h1⟩
  · rw [i.add_succeeds o ho k n t (hnone h1)] at h2; cases h2

theorem getItem_val {w : World} {o : Ptr} (ho : w.isContainer o = true) (k : Cat) (n : Str) :
    w.getItem o k n = .val (((w.cont o k).get n).map (·.ptr)) := by simp [getItem, ho]

theorem Inv.getItem_none {rank} {w : World} (i : Inv rank w) {o : Ptr} (ho : w.isContainer o = true)
    {k : Cat} {n : Str} (hn : n ≠ []) (h : w.getItem o k n = .val none) :
    ∀ x ∈ (w.cont o k).items, x.name ≠ n := by
  rw [getItem_val ho] at h
  simp only [Res.val.injEq, Option.map_eq_none_iff] at h
  rw [(i.wf o k).get_none] at h
  exact h.resolve_left hn

theorem Inv.getItem_some {rank} {w : World} (i : Inv rank w) {o : Ptr} (ho : w.isContainer o = true)
    {k : Cat} {n : Str} {p : Ptr} : w.getItem o k n = .val (some p) ↔
      n ≠ [] ∧ ⟨p, n⟩ ∈ (w.cont o k).items := by
  rw [getItem_val ho]
  simp only [Res.val.injEq, Option.map_eq_some_iff]
  constructor
  · rintro ⟨it, h, rfl⟩
    obtain ⟨h0, h1, h2⟩ := ((i.wf o k).get_iff n it).1 h
    subst h2
    exact ⟨h0, h1⟩
  · rintro ⟨h0, h1⟩
    exact ⟨_, ((i.wf o k).get_iff n _).2 ⟨h0, h1, rfl⟩, rfl⟩

theorem Inv.isContainer_created {rank} {w : World} (i : Inv rank w) {o : Ptr}
    (_ : w.isContainer o = true) (k n t) {c : Ptr} (hc : w.isContainer c = true) :
    (w.created o k n t).isContainer c = true := by
  rw [isContainer_iff] at hc ⊢
  rw [created_kind]
  rcases hc with hc | hc
  · left; rw [upd_ne _ _ (i.kind_ne_next hc)]; exact hc
  · right; rw [upd_ne _ _ (i.kind_ne_next hc)]; exact hc

theorem Inv.getItem_created {rank} {w : World} (i : Inv rank w) {o : Ptr} (ho : w.isContainer o = true)
    {k : Cat} {n : Str} (t : TypeId) (hn : n ≠ []) (h : ∀ x ∈ (w.cont o k).items, x.name ≠ n)
    (hc : k = .cls → w.valid t = true ∧ w.metaClass t = none) :
    (w.created o k n t).getItem o k n = .val (some w.next) := by
  have hr := i.add_succeeds o ho k n t h
  obtain ⟨hit, _, _⟩ := i.created_facts o ho k n t hr
  have i' := i.created o ho k n t hr hc
  rw [i'.getItem_some (i.isContainer_created ho k n t ho)]
  exact ⟨hn, by rw [hit]; simp⟩

theorem getMethod_val {rank} {w : World} (i : Inv rank w) {o : Ptr} (ho : w.isContainer o = true)
    {n : Str} : ∃ r, w.getMethod o n = .val r := by
  unfold getMethod
  split
  · exact ⟨_, rfl⟩
  · rename_i hn
    rw [isContainer_iff] at ho
    rcases ho with ho | ho
    · rw [ho]
      obtain ⟨r, e, _⟩ := ownMethod_spec w o n
      exact ⟨r, e⟩
    · rw [ho]
      obtain ⟨r, e, _⟩ := i.classMethodF_spec n hn w.depth o ho (below_lt_depth _ _ _)
      exact ⟨r, e⟩

theorem getProperty_val {rank} {w : World} (i : Inv rank w) {o : Ptr} (ho : w.isContainer o = true)
    {n : Str} (hn : n ≠ []) : ∃ r, w.getProperty o n = .val r := by
  unfold getProperty
  rw [isContainer_iff] at ho
  rcases ho with ho | ho
  · rw [ho]; exact ⟨_, rfl⟩
  · rw [ho]
    obtain ⟨r, e, _⟩ := i.classPropertyF_spec n hn w.depth o ho (below_lt_depth _ _ _)
    exact ⟨r, e⟩

/-- an own method found is the answer -/
theorem getMethod_of_own {w : World} {o : Ptr} (ho : w.isContainer o = true) {n : Str} (hn : n ≠ [])
    {p : Ptr} (h : w.ownMethod o n = .val (some p)) : w.getMethod o n = .val (some p) := by
  unfold getMethod
  rw [if_neg hn]
  rw [isContainer_iff] at ho
  rcases ho with ho | ho
  · rw [ho]; exact h
  · rw [ho]; simp only [depth]; unfold classMethodF; rw [if_neg hn, h]

theorem getProperty_of_own {w : World} {o : Ptr} (ho : w.isContainer o = true) {n : Str} (hn : n ≠ [])
    {p : Ptr} (h : w.ownProperty o n = some p) : w.getProperty o n = .val (some p) := by
  unfold getProperty
  rw [isContainer_iff] at ho
  rcases ho with ho | ho
  · rw [ho]; simp [h]
  · rw [ho]; simp only [depth]; unfold classPropertyF; rw [if_neg hn, h]

theorem names_ne_of_findMethod_none {n : Str} {its : List Item} (h : findMethod n its = some none) :
    ∀ x ∈ its, x.name ≠ n := by
  rw [findMethod_none_iff] at h
  intro x hx e
  exact h x hx (.inl e)

theorem Inv.getMethod_created {rank} {w : World} (i : Inv rank w) {o : Ptr} (ho : w.isContainer o = true)
    {n : Str} (hn : n ≠ []) (h : w.getMethod o n = .val none) :
    (w.created o .method n 0).getMethod o n = .val (some w.next) := by
  have hf := getMethod_none_own i ho hn h
  have hr := i.add_succeeds o ho .method n 0 (names_ne_of_findMethod_none hf)
  obtain ⟨hit, _, _⟩ := i.created_facts o ho .method n 0 hr
  apply getMethod_of_own (i.isContainer_created ho _ _ _ ho) hn
  unfold ownMethod
  rw [hit]
  simp only [and_self, if_true]
  rw [findMethod_snoc _ hf]

theorem Inv.getProperty_created {rank} {w : World} (i : Inv rank w) {o : Ptr} (ho : w.isContainer o = true)
    {n : Str} (hn : n ≠ []) (h : w.getProperty o n = .val none) :
    (w.created o .property n 0).getProperty o n = .val (some w.next) := by
  have hf := getProperty_none_own i ho hn h
  have hr := i.add_succeeds o ho .property n 0 hf
  obtain ⟨hit, _, _⟩ := i.created_facts o ho .property n 0 hr
  have i' := i.created o ho .property n 0 hr (by simp)
  apply getProperty_of_own (i.isContainer_created ho _ _ _ ho) hn
  rw [i'.ownProperty_spec o n hn]
  exact ⟨⟨w.next, n⟩, by rw [hit]; simp, rfl, rfl⟩

theorem getConstructor_val {w : World} {o : Ptr} (ho : w.isContainer o = true)
    {n : Str} : ∃ r, w.getConstructor o n = .val r := by
  unfold getConstructor
  rw [if_pos ho]
  obtain ⟨r, e, _⟩ := findMethod_spec n (w.cont o .constructor).items
  rw [e]
  cases r with
  | none => exact ⟨_, rfl⟩
  | some x => exact ⟨_, rfl⟩

theorem getConstructor_none {w : World} {o : Ptr} (ho : w.isContainer o = true)
    {n : Str} (h : w.getConstructor o n = .val none) :
    findMethod n (w.cont o .constructor).items = some none := by
  unfold getConstructor at h
  rw [if_pos ho] at h
  split at h <;> simp_all

theorem Inv.getConstructor_created {rank} {w : World} (i : Inv rank w) {o : Ptr}
    (ho : w.isContainer o = true) {n : Str} (h : w.getConstructor o n = .val none) :
    (w.created o .constructor n 0).getConstructor o n = .val (some w.next) := by
  have hf := getConstructor_none ho h
  have hr := i.add_succeeds o ho .constructor n 0 (names_ne_of_findMethod_none hf)
  obtain ⟨hit, _, _⟩ := i.created_facts o ho .constructor n 0 hr
  unfold getConstructor
  rw [if_pos (i.isContainer_created ho _ _ _ ho), hit]
  simp only [and_self, if_true]
  rw [findMethod_snoc _ hf]

/-- functional Own makes the depth-first answer unique -/
theorem Finds.unique {rank} {w : World} (i : Inv rank w) {Own : Ptr → Ptr → Prop}
    (hf : ∀ c m m', Own c m → Own c m' → m = m') {c m m' : Ptr}
    (h : Finds w Own c m) (h' : Finds w Own c m') : m = m' := by
  induction h generalizing m' with
  | own h =>
    cases h' with
    | own h' => exact hf _ _ _ h h'
    | base hn => exact absurd h (hn _)
  | @base c q m t f pre post hn h1 h2 h3 h4 ih =>
    cases h' with
    | own h' => exact absurd h' (hn _)
    | @base _ q' _ t' f' pre' post' hn' h1' h2' h3' h4' =>
      have key := split_unique (fun x : TypeId × Caster => ∃ q, w.find x.1 = some q ∧ ∃ a m, Reaches w q a ∧ Own a m)
        h1 h1' (x := (t, f)) (y := (t', f'))
        ⟨q, h2, by obtain ⟨a, ha, hb⟩ := Finds.exists_own i h4; exact ⟨a, _, ha, hb⟩⟩
        ⟨q', h2', by obtain ⟨a, ha, hb⟩ := Finds.exists_own i h4'; exact ⟨a, _, ha, hb⟩⟩
        (by rintro z hz ⟨q, hq, a, m, hr, ho⟩; exact h3 z hz q hq a m hr ho)
        (by rintro z hz ⟨q, hq, a, m, hr, ho⟩; exact h3' z hz q hq a m hr ho)
      have e := key.1
      injection e with e1 e2
      subst e1
      rw [h2] at h2'
      injection h2' with e3
      subst e3
      exact ih h4'

theorem OwnMethod.unique {w : World} {n : Str} {c m m' : Ptr} (h : OwnMethod w n c m)
    (h' : OwnMethod w n c m') : m = m' := by
  obtain ⟨r, e, hr⟩ := ownMethod_spec w c n
  have a := (hr m).2 h
  have b := (hr m').2 h'
  rw [a] at b; simpa using b

theorem Inv.ownProperty_unique {rank} {w : World} (i : Inv rank w) {n : Str} (hn : n ≠ []) {c m m' : Ptr}
    (h : OwnProperty w n c m) (h' : OwnProperty w n c m') : m = m' := by
  rw [← i.ownProperty_spec c n hn] at h h'
  rw [h] at h'; simpa using h'

/-- API calls one after another (for the concrete cases) -/
def run (w : World) (ops : List Op) : World := ops.foldl (fun w op => (w.step op).1) w

/-- all calls legal and ending normally or with an exception -/
def okRun (rank : TypeId → Nat) (w : World) : List Op → Bool
  | [] => true
  | op :: ops =>
    (match op with
      | .addBase this t _ => decide (rank t < rank (w.cls this).typeId)
      | _ => true) &&
    (match (w.step op).2 with | .ub => false | .diverge => false | _ => true) &&
    okRun rank (w.step op).1 ops

theorem reachable_run {rank} {w : World} (h : Reachable rank w) (ops : List Op)
    (ho : okRun rank w ops = true) : Reachable rank (w.run ops) := by
  induction ops generalizing w with
  | nil => exact h
  | cons op ops ih =>
    simp only [okRun, Bool.and_eq_true] at ho
    obtain ⟨⟨h1, h2⟩, h3⟩ := ho
    refine ih (.step op h ?_ ?_ ?_) h3
    · cases op <;> simp_all [Legal]
    · intro e; rw [e] at h2; cases h2
    · intro e; rw [e] at h2; cases h2

end World
end Rtti
