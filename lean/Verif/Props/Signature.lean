import Verif.Lemmas.Signature
import Verif.Props.Define
/-
C23, C24 and the member-function case of C30.
-/
namespace Rtti.Props
open Rtti Spec World

/-- C23: the signature text determines the name and the parameter types. -/
theorem C23_injective {n m : Str} {as bs : List Str} (hn : '(' ∉ n) (hm : '(' ∉ m)
    (ha : ∀ a ∈ as, TypeName a) (hb : ∀ b ∈ bs, TypeName b)
    (e : signatureText n as = signatureText m bs) : n = m ∧ as = bs := by
  cases as with
  | nil =>
    cases bs with
    | nil =>
      rw [signatureText_nil, signatureText_nil] at e
      exact ⟨(name_split hn hm e).1, rfl⟩
    | cons b bs =>
      rw [signatureText_nil, signatureText_cons] at e
      have h2 := (name_split hn hm e).2
      obtain ⟨h, _⟩ := tail_injective (as := []) (bs := bs) (a := []) (b := b) rfl (hb b (by simp)).2
        (by simp) (fun x hx => (hb x (by simp [hx])).2) (by simpa [tailText] using h2)
      exact absurd h.symm (hb b (by simp)).1
  | cons a as =>
    cases bs with
    | nil =>
      rw [signatureText_nil, signatureText_cons] at e
      have h2 := (name_split hn hm e).2
      obtain ⟨h, _⟩ := tail_injective (as := as) (bs := []) (a := a) (b := []) (ha a (by simp)).2 rfl
        (fun x hx => (ha x (by simp [hx])).2) (by simp) (by simpa [tailText] using h2)
      exact absurd h (ha a (by simp)).1
    | cons b bs =>
      rw [signatureText_cons, signatureText_cons] at e
      obtain ⟨rfl, h2⟩ := name_split hn hm e
      obtain ⟨rfl, rfl⟩ := tail_injective (ha a (by simp)).2 (hb b (by simp)).2
        (fun x hx => (ha x (by simp [hx])).2) (fun x hx => (hb x (by simp [hx])).2) h2
      exact ⟨rfl, rfl⟩

/-- C23: the text for any number of parameters: name, then the parameter types in order separated by ", ", in parentheses. -/
theorem C23_format (n : Str) (as : List Str) : signatureText n as = n ++ '(' :: List.intercalate [',', ' '] as ++ [')'] := by
  have inter : ∀ (a : Str) (as : List Str), List.intercalate [',', ' '] (a :: as) = a ++ tailText as := by
    intro a as
    induction as generalizing a with
    | nil => simp [List.intercalate, tailText]
    | cons b as ih =>
      have := ih b
      simp only [List.intercalate, List.intersperse_cons_cons, List.flatten_cons] at this ⊢
      rw [this]
      simp [tailText]
  cases as with
  | nil => rw [signatureText_nil]; simp [List.intercalate]
  | cons a as => rw [signatureText_cons, inter]; simp

/-- C23: the text itself, written out: name, then the parameter types in order separated by ", ", in parentheses. -/
theorem C23_text (n a b c : Str) : signatureText n [] = n ++ ['(', ')'] ∧
    signatureText n [a] = n ++ ['('] ++ a ++ [')'] ∧
    signatureText n [a, b, c] = n ++ ['('] ++ a ++ [',', ' '] ++ b ++ [',', ' '] ++ c ++ [')'] := by
  simp [signatureText, writeNames]

/-- C23: the parameter types a registered function shows: its own, in order; a member function's come after the object it is called on. -/
def Shown : Func → List Str
  | .static as => as
  | .member c false as => (c ++ "&".toList) :: as
  | .member c true as => ("const ".toList ++ c ++ "&".toList) :: as

/-- C23: the signature of a function registered under a name is the name and its parameter types in order, in parentheses. -/
theorem C23_function (n : Str) (f : Func) : funcSignature n f = n ++ '(' :: List.intercalate [',', ' '] (Shown f) ++ [')'] := by
  cases f with
  | static as => exact C23_format n as
  | member c b as => cases b <;> simp [funcSignature, Shown, C23_format]

/-- The hypotheses of C23 cannot be dropped: an empty type name, a top-level comma or a '(' in the name
    give two overloads one signature. -/
theorem C23_hypotheses_needed :
    signatureText ['f'] [] = signatureText ['f'] [[]] ∧
    signatureText ['f'] [['a', ',', ' ', 'b']] = signatureText ['f'] [['a'], ['b']] ∧
    signatureText ['f', '('] [['a', ')']] = signatureText ['f'] [['(', 'a', ')']] := by decide

example : '(' ∉ ['f'] ∧ ∀ a ∈ [['m', 'a', 'p', '<', 'i', ',', ' ', 'j', '>'], ['v', '(', 'i', ',', 'j', ')']],
    TypeName a := by decide

/-- C24 is false: a method registered as `operator()` is not found under that name. -/
theorem C24_false : ∃ (w : World) (n : Str) (f : Func) (m : Ptr), Reachable id w ∧ n ≠ [] ∧
    (∀ x ∈ (w.cont 1 .method).items, ¬ Denotes n x.name) ∧
    (w.defineMethod 1 n f).2 = .val (some m) ∧
    (w.defineMethod 1 n f).1.getMethod 1 n = .val none :=
  ⟨.init, ['o', 'p', '(', ')'], .static [['i', 'n', 't']], 2, .init, by decide, (fun x hx => nomatch hx), by decide, by decide⟩

theorem funcSignature_paren (n : Str) (f : Func) : ∃ r, funcSignature n f = n ++ '(' :: r := by
  cases f <;> exact signatureText_paren _ _

/-- C23: a function registered by `_method` is found by `getMethod<Args...>(name)` with its parameter types in order, /repo/include/rtti/metacontainer.h:67-70;
    unless the look-up already gave a method before, the method found is the new one. -/
theorem C23_found {rank} {w : World} (h : Reachable rank w) {o : Ptr} (ho : w.isContainer o = true) (n : Str) (f : Func) :
    ∃ m, (w.defineMethod o n f).2 = .val (some m) ∧ (w.defineMethod o n f).1.getMethod o (n ++ '(' :: List.intercalate [',', ' '] (Shown f) ++ [')']) = .val (some m) ∧
      (w.getMethod o (n ++ '(' :: List.intercalate [',', ' '] (Shown f) ++ [')']) = .val none ∧ w.kind m = none ∨
       w.getMethod o (n ++ '(' :: List.intercalate [',', ' '] (Shown f) ++ [')']) = .val (some m)) := by
  have hs : funcSignature n f ≠ [] := by
    obtain ⟨r, e⟩ := funcSignature_paren n f
    rw [e]; simp
  rw [← C23_function]
  rcases C17_method h ho hs with ⟨p, h1, h2, h3⟩ | ⟨h0, p, h1, h2, h3⟩
  · refine ⟨p, h2, ?_, .inr h1⟩
    unfold World.defineMethod
    rw [h3]; exact h1
  · exact ⟨p, h1, h3, .inl ⟨h0, h2.fresh⟩⟩

example : Shown (.member "C".toList true ["int".toList, "char".toList]) = ["const C&".toList, "int".toList, "char".toList] ∧
    Reachable id World.init ∧ World.init.isContainer 1 = true ∧
    (World.init.defineMethod 1 "f".toList (.static ["int".toList, "char".toList])).1.getMethod 1 "f(int, char)".toList = .val (some 2) ∧
    (World.init.defineMethod 1 "f".toList (.static ["int".toList, "char".toList])).1.getMethod 1 "f(char, int)".toList = .val none :=
  ⟨by decide, .init, by decide, by decide +kernel, by decide +kernel⟩

/-- C24, what holds: for a name without parentheses, in a container with no own method of that name
    and where no ancestor has the very same signature, `_method` defines a method which is then found
    both by its name and by its signature. Missing: names with '(' (`C24_false`). -/
theorem C24_partial {rank} {w : World} (h : Reachable rank w) {o : Ptr} (ho : w.isContainer o = true)
    {n : Str} {f : Func} (hn : n ≠ []) (hp : '(' ∉ n)
    (hown : ∀ x ∈ (w.cont o .method).items, ¬ Denotes n x.name)
    (hanc : w.getMethod o (funcSignature n f) = .val none) :
    ∃ m, (w.defineMethod o n f).2 = .val (some m) ∧ w.kind m = none ∧
      (w.defineMethod o n f).1.owner m = some o ∧
      (w.defineMethod o n f).1.getMethod o n = .val (some m) ∧
      (w.defineMethod o n f).1.getMethod o (funcSignature n f) = .val (some m) := by
  have hs : funcSignature n f ≠ [] := by
    obtain ⟨r, e⟩ := funcSignature_paren n f
    rw [e]; simp
  rcases C17_method h ho hs with ⟨p, h1, _⟩ | ⟨_, p, h1, h2, h3⟩
  · exact absurd (hanc.symm.trans h1) (by simp)
  · refine ⟨p, h1, h2.fresh, h2.owner, ?_, h3⟩
    have hne : o ≠ p := by
      rintro rfl
      have := h2.fresh
      simp [isContainer, this] at ho
    have hoc : (w.createMethod o (funcSignature n f) true).1.isContainer o = true := by
      simpa [isContainer, (h2.otherObjects o hne).1] using ho
    refine getMethod_of_own hoc hn ?_
    unfold ownMethod
    rw [h2.items]
    have : findMethod n ((w.cont o .method).items ++ [⟨p, funcSignature n f⟩]) =
        some (some ⟨p, funcSignature n f⟩) := by
      rw [findMethod_some_iff]
      obtain ⟨r, e⟩ := funcSignature_paren n f
      exact ⟨_, [], rfl, .inr ⟨r, e, hp⟩, hown⟩
    rw [this]

example : ∃ m, (Ex.diamond.defineMethod 5 ['f'] (.member ['D'] false [])).2 = .val (some m) ∧
    (Ex.diamond.defineMethod 5 ['f'] (.member ['D'] false [])).1.getMethod 5 ['f'] = .val (some m) :=
  ⟨10, by decide, by decide⟩

/-- the first parameter of a member function determines its class -/
theorem C30_signature_names_class {n m c d : Str} {k k' : Bool} {as bs : List Str}
    (hn : '(' ∉ n) (hm : '(' ∉ m) (hc : Balanced 0 (c ++ ['&'])) (hd : Balanced 0 (d ++ ['&']))
    (pc : ¬ ['c', 'o', 'n', 's', 't', ' '] <+: c) (pd : ¬ ['c', 'o', 'n', 's', 't', ' '] <+: d)
    (ha : ∀ a ∈ as, TypeName a) (hb : ∀ b ∈ bs, TypeName b)
    (e : funcSignature n (.member c k as) = funcSignature m (.member d k' bs)) :
    n = m ∧ c = d ∧ k = k' ∧ as = bs := by
  have bal : ∀ x : Str, Balanced 0 (x ++ ['&']) → ∀ k : Bool,
      TypeName ((if k then ['c','o','n','s','t',' '] else []) ++ x ++ ['&']) := by
    intro x hx k
    refine ⟨by simp, ?_⟩
    cases k
    · simpa using hx
    · simpa [Balanced, isOpen, isClose] using hx
  obtain ⟨h1, h2⟩ := C23_injective hn hm
    (fun a h => (List.mem_cons.1 h).elim (fun e => e ▸ bal c hc k) (ha a))
    (fun a h => (List.mem_cons.1 h).elim (fun e => e ▸ bal d hd k') (hb a)) e
  simp only [List.cons.injEq, List.append_cancel_right_eq] at h2
  obtain ⟨h3, h4⟩ := h2
  cases k <;> cases k' <;> simp at h3
  · exact ⟨h1, h3, rfl, h4⟩
  · exact absurd ⟨d, by simpa using h3.symm⟩ pc
  · exact absurd ⟨c, by simpa using h3⟩ pd
  · exact ⟨h1, h3, rfl, h4⟩

/-- C30 for member functions: when every method of the proper ancestors was registered from a member
    function of another class, the derived class gets its own method even if an ancestor has one of the
    same name and parameters, because the class is part of the signature; look-up by plain name on the
    derived class then yields the derived method. -/
theorem C30_member_functions_partial {rank} {w : World} (h : Reachable rank w) {d : Ptr} {n c : Str}
    {k : Bool} {as : List Str} (hd : w.kind d = some .cls) (hn : n ≠ []) (hp : '(' ∉ n)
    (hc : Balanced 0 (c ++ ['&'])) (pc : ¬ ['c', 'o', 'n', 's', 't', ' '] <+: c)
    (ha : ∀ a ∈ as, TypeName a)
    (hown : ∀ x ∈ (w.cont d .method).items, ¬ Denotes n x.name)
    (hbase : ∀ a, Reaches w d a → a ≠ d → ∀ x ∈ (w.cont a .method).items, ∃ m c' k' bs,
      x.name = funcSignature m (.member c' k' bs) ∧ c' ≠ c ∧ '(' ∉ m ∧ Balanced 0 (c' ++ ['&']) ∧
      ¬ ['c', 'o', 'n', 's', 't', ' '] <+: c' ∧ ∀ b ∈ bs, TypeName b) :
    ∃ m, (w.defineMethod d n (.member c k as)).2 = .val (some m) ∧
      (w.defineMethod d n (.member c k as)).1.owner m = some d ∧
      (w.defineMethod d n (.member c k as)).1.getMethod d n = .val (some m) := by
  have ho : w.isContainer d = true := by simp [isContainer, hd]
  obtain ⟨r, er⟩ := funcSignature_paren n (.member c k as)
  have hsig : funcSignature n (.member c k as) ≠ [] := by rw [er]; simp
  have hlook : w.getMethod d (funcSignature n (.member c k as)) = .val none := by
    obtain ⟨r', e, h1, _⟩ := (Inv.reachable h).classMethodF_spec _ hsig w.depth d hd (below_lt_depth _ _ _)
    simp only [getMethod, if_neg hsig, hd]
    rw [e]
    cases r' with
    | none => rfl
    | some m =>
      exfalso
      obtain ⟨a, hr, it, _, pre, post, hit, hden, _⟩ := Finds.exists_own (Inv.reachable h) (h1 m rfl)
      have hmem : it ∈ (w.cont a .method).items := by rw [hit]; simp
      have hname : it.name = funcSignature n (.member c k as) := by
        rcases hden with e | ⟨_, _, hq⟩
        · exact e
        · rw [er] at hq; simp at hq
      by_cases had : a = d
      · subst had
        exact hown it hmem (.inr ⟨r, by rw [hname, er], hp⟩)
      · obtain ⟨m', c', k', bs, e1, e2, e3, e4, e5, e6⟩ := hbase a hr had it hmem
        exact e2 (C30_signature_names_class e3 hp e4 hc e5 pc e6 ha (e1.symm.trans hname)).2.1
  obtain ⟨m, h1, _, h3, h4, _⟩ := C24_partial h ho hn hp hown hlook
  exact ⟨m, h1, h3, h4⟩

/-- a base class `B` with `f` and a derived class `D` -/
def overrideWorld : World := World.init.run [.registerType 1, .registerType 2, .createClass 1 ['B'] 1,
  .createClass 1 ['D'] 2, .addBase 3 1 id,
  .createMethod 2 (funcSignature ['f'] (.member ['B'] false [])) true]

example : Reachable id overrideWorld ∧ overrideWorld.getMethod 3 ['f'] = .val (some 4) ∧
    (overrideWorld.defineMethod 3 ['f'] (.member ['D'] false [])).1.getMethod 3 ['f'] = .val (some 5) ∧
    (overrideWorld.defineMethod 3 ['f'] (.static [['B', '&']])).1.getMethod 3 ['f'] = .val (some 4) :=
  ⟨reachable_run .init _ (by decide), by decide, by decide, by decide⟩

end Rtti.Props
