import Verif.Lemmas.LazyAny
/-! C58 with deferred definitions that may do anything: define into other classes, declare base classes, look things up, fail. -/
set_option autoImplicit false
namespace Rtti.Props
open Lazy Spec

theorem any_ready {rank : TypeId → Nat} (fuel n : Nat) (cs : List Cmd) (q : Query)
    (h : ProperBases rank (run (n + 1) [.query q] (after fuel cs)).1.w cs) :
    Fine rank (run (n + 1) [.query q] (after fuel cs)).1.w (after fuel cs) ∧ Reachable rank (after fuel cs).w := by
  obtain ⟨k, g, e, l⟩ := leads_run rank _ fuel cs h init kindsOk_init (pendingOk_init _ _)
  have hT := top_init.run fuel cs
  have e' : Ext (after fuel cs).w (run (n + 1) [.query q] (after fuel cs)).1.w := by
    obtain ⟨_, _, e', _⟩ := leads_run rank (run (n + 1) [.query q] (after fuel cs)).1.w (n + 1) [.query q] ⟨trivial, trivial⟩ (after fuel cs) k g
    exact e'
  exact ⟨⟨k, g, hT.calm⟩, later_reachable .init (l e' .init)⟩

theorem asked {n : Nat} {q : Query} {f : LM (Option Nat)} (hq : query (check (n + 1)) (n + 1) q = f.bind fun r => LM.pure (.ptr r)) {s s' : LW} {r : Option Nat}
    (h : run (n + 1) [.query q] s = (s', .val [.ptr r])) : f s = (s', .val r) := by
  rw [run_cons, exec, hq] at h
  obtain ⟨s1, a, h1, h2⟩ := bind_eq_val h
  obtain ⟨s2, o, h3, h4⟩ := bind_eq_val h1
  cases h4
  simp only [LM.bind, run, execs, LM.pure] at h2
  cases h2
  exact h3

/-- what a search in vain says of the classes there were when it began -/
theorem vain_reaches {rank : TypeId → Nat} (M : Sort') {N : Nat} {s s' : LW} (hf : Fine rank s'.w s) (hr : Reachable rank s.w) {c a : Ptr}
    (hc : s.w.kind c = some .cls) (h : Vain N M.Own s' s c) (ha : Reaches s.w c a) :
    (∃ s1, Checks N s s1 ∧ Checks N s1 s' ∧ s1.pending a = none ∧ ∀ m, ¬M.Own s1.w a m) ∧ ∀ m, ¬M.Own s.w a m := by
  have grows : ∀ {t t1 : LW}, Fine rank s'.w t → Reachable rank t.w → Checks N t t1 → Checks N t1 s' →
      Fine rank s'.w t1 ∧ Reachable rank t1.w ∧ World.Grows t.w t1.w := by
    intro t t1 hf hr h1 h2
    obtain ⟨f1, _, l1⟩ := Checks.fine h1 hf
    obtain ⟨_, e2, _⟩ := Checks.fine h2 f1
    exact ⟨f1, later_grows hr (l1 e2 hr)⟩
  have key : ∀ {t : LW} {d : Ptr}, Vain N M.Own s' t d → ∀ {c : Ptr}, d = c → Fine rank s'.w t → Reachable rank t.w → t.w.kind c = some .cls → Reaches t.w c a →
      ∃ s1, Checks N t s1 ∧ Checks N s1 s' ∧ s1.pending a = none ∧ ∀ m, ¬M.Own s1.w a m := by
    intro t d h
    induction h with
    | @mk t t1 d hm hm' hp hn hb ih =>
      intro c e hf hr hc ha
      subst e
      obtain ⟨hf1, hr1, g⟩ := grows hf hr hm hm'
      cases ha with
      | refl => exact ⟨t1, hm, hm', hp, hn⟩
      | step hd hra =>
        rename_i m
        obtain ⟨x, hx, hq⟩ := (declared_iff _ _ _).1 hd
        have hk : t.w.kind m = some .cls := (((World.Inv.reachable hr).mc _ _ ((find_iff _ _ _).1 hq).2).2).1
        obtain ⟨l, hl⟩ := g.bases d hc
        have hd1 : DeclaredBase t1.w d m := (declared_iff _ _ _).2 ⟨x, by rw [hl]; exact List.mem_append_left _ hx, find_grows g hq⟩
        obtain ⟨s1, h1, h2⟩ := ih m hd1 rfl hf1 hr1 (g.kind _ _ hk) (reaches_grows (World.Inv.reachable hr) g hk hra).1
        exact ⟨s1, Checks.trans hm h1, h2⟩
  obtain ⟨s1, h1, h1', h2, h3⟩ := key h rfl hf hr hc ha
  obtain ⟨_, _, g⟩ := grows hf hr h1 h1'
  refine ⟨⟨s1, h1, h1', h2, h3⟩, fun m hm => h3 m (M.keep g a m ?_ hm)⟩
  rw [World.isContainer_iff]
  exact .inr (reaches_grows (World.Inv.reachable hr) g hc ha).2

/-- Looking up a method, whatever the pending definitions do: a method found is one of the class or of an ancestor of it; if none is found, the class and all
    its ancestors were searched, each at a moment when its own definition was complete and it had no such method. Nothing that was there before the
    look-up is missed. -/
theorem C58_method_any {rank : TypeId → Nat} (fuel n : Nat) (cs : List Cmd) (c : Nat) (name : Str) (hn : name ≠ []) (s' : LW) (r : Option Nat)
    (hc : (after fuel cs).w.kind c = some .cls) (h : run (n + 1) [.query (.method c name)] (after fuel cs) = (s', .val [.ptr r]))
    (hb : ProperBases rank s'.w cs) :
    (∀ m, r = some m → ∃ a, Reaches s'.w c a ∧ OwnMethod s'.w name a m) ∧
    (r = none → Vain (n + 1) (fun w => OwnMethod w name) s' (after fuel cs) c ∧
      ∀ a, Reaches (after fuel cs).w c a →
        (∃ s1, Checks (n + 1) (after fuel cs) s1 ∧ Checks (n + 1) s1 s' ∧ s1.pending a = none ∧ ∀ m, ¬OwnMethod s1.w name a m) ∧ ∀ m, ¬OwnMethod (after fuel cs).w name a m) := by
  obtain ⟨hf, hr⟩ := any_ready (rank := rank) fuel n cs (.method c name) (by rw [h]; exact hb)
  rw [h] at hf
  have hlook : classMethod (check (n + 1)) (n + 1) c name (after fuel cs) = (s', .val r) := by
    have h3 := asked rfl h
    have e : getMethod (check (n + 1)) (n + 1) c name (after fuel cs) = classMethod (check (n + 1)) (n + 1) c name (after fuel cs) := by
      unfold getMethod
      rw [if_neg hn]
      simp only [LM.bind, LM.read, hc]
    rw [e] at h3
    exact h3
  have hgot := lookup_got (methodS name) n (fun k p => classMethod (check (n + 1)) k p name) (fun _ => rfl)
    (fun k p => by
      funext s
      exact congrFun (if_neg hn) s)
    (fun k p => (io _ (checks_look (n + 1))).classMethod (chk' := check (n + 1)) (checks_check (n + 1)) (.inl rfl) p name)
    (n + 1) c _ s' r hf hr hc hlook (.refl _)
  refine ⟨?_, ?_⟩
  · rintro m rfl; exact hgot
  · rintro rfl
    exact ⟨hgot, fun a ha => vain_reaches (methodS name) hf hr hc hgot ha⟩

/-- The same for properties. -/
theorem C58_property_any {rank : TypeId → Nat} (fuel n : Nat) (cs : List Cmd) (c : Nat) (name : Str) (hn : name ≠ []) (s' : LW) (r : Option Nat)
    (hc : (after fuel cs).w.kind c = some .cls) (h : run (n + 1) [.query (.property c name)] (after fuel cs) = (s', .val [.ptr r]))
    (hb : ProperBases rank s'.w cs) :
    (∀ m, r = some m → ∃ a, Reaches s'.w c a ∧ OwnProperty s'.w name a m) ∧
    (r = none → Vain (n + 1) (fun w => OwnProperty w name) s' (after fuel cs) c ∧
      ∀ a, Reaches (after fuel cs).w c a →
        (∃ s1, Checks (n + 1) (after fuel cs) s1 ∧ Checks (n + 1) s1 s' ∧ s1.pending a = none ∧ ∀ m, ¬OwnProperty s1.w name a m) ∧ ∀ m, ¬OwnProperty (after fuel cs).w name a m) := by
  obtain ⟨hf, hr⟩ := any_ready (rank := rank) fuel n cs (.property c name) (by rw [h]; exact hb)
  rw [h] at hf
  have hlook : classProperty (check (n + 1)) (n + 1) c name (after fuel cs) = (s', .val r) := by
    have h3 := asked rfl h
    have e : getProperty (check (n + 1)) (n + 1) c name (after fuel cs) = classProperty (check (n + 1)) (n + 1) c name (after fuel cs) := by
      unfold getProperty
      simp only [LM.bind, LM.read, hc]
    rw [e] at h3
    exact h3
  have hgot := lookup_got (propertyS name hn) n (fun k p => classProperty (check (n + 1)) k p name) (fun _ => rfl)
    (fun k p => by
      funext s
      exact congrFun (if_neg hn) s)
    (fun k p => (io _ (checks_look (n + 1))).classProperty (chk' := check (n + 1)) (checks_check (n + 1)) (.inl rfl) p name)
    (n + 1) c _ s' r hf hr hc hlook (.refl _)
  refine ⟨?_, ?_⟩
  · rintro m rfl; exact hgot
  · rintro rfl
    exact ⟨hgot, fun a ha => vain_reaches (propertyS name hn) hf hr hc hgot ha⟩

/-- `D` (3) has bases `B` (2) and `C` (4); `C`'s definition gives `B` a method `f()` and `C` a method `g()` -/
def crossBases : List Cmd := lazyBases.take 8 ++ [.install 4 [.op (.createMethod 2 ['f', '(', ')'] true), .op (.createMethod 4 ['g', '(', ')'] true)]]

-- it is missed once (`f`), the other found
example : (run 9 [.query (.method 3 ['f'])] (after 9 crossBases)).2 = .val [.ptr none] ∧
    (run 9 [.query (.method 3 ['g'])] (after 9 crossBases)).2 = .val [.ptr (some 6)] ∧ (after 9 crossBases).w.kind 3 = some .cls := by decide +kernel
example : ProperBases (fun t => if t = 8 then 1 else 0) (run 9 [.query (.method 3 ['f'])] (after 9 crossBases)).1.w crossBases := by
  simp only [ProperBases, crossBases, lazyBases, List.take, List.cons_append, List.nil_append, DeclaresAll, Declares, and_true, true_and]
  decide +kernel

end Rtti.Props
