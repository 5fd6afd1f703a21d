import Verif.Spec.Builder
set_option autoImplicit false
namespace Rtti.Builder
open Rtti Spec

section
variable {chk : Ptr → LM Unit} {fuel : Nat}

/-- continue a chain -/
def andThen (r : BS × Res Bld) (k : Bld → BS → BS × Res Bld) : BS × Res Bld :=
  match r with
  | (s, .val b) => k b s
  | (s, .throw e) => (s, .throw e)
  | (s, .ub) => (s, .ub)
  | (s, .diverge) => (s, .diverge)

theorem chain_append (b : Bld) (xs ys : List BCmd) (s : BS) :
    chain chk fuel b (xs ++ ys) s = andThen (chain chk fuel b xs s) fun b' s' => chain chk fuel b' ys s' := by
  induction xs generalizing b s with
  | nil => rfl
  | cons x xs ih =>
    simp only [List.cons_append, chain]
    generalize call chk fuel b x s = r
    obtain ⟨s', r | e | _ | _⟩ := r
    · exact ih _ _
    · rfl
    · rfl
    · rfl

/-- one call that leaves the stack alone, against the tree -/
theorem sameEnd_one {o : Option Ptr} {st : List (Option Ptr)} {b : Bld} {c : BCmd} {s : BS} {q : BW × Res (Option Ptr)}
    (h : match call chk fuel b c s, q with
      | (s, .val r), (s', .val cur) => s = ⟨s', st⟩ ∧ r.2 = ⟨cur, o⟩
      | (s, .throw e), (s', .throw e') => s.b = s' ∧ e = e'
      | (s, .ub), (s', .ub) => s.b = s'
      | (s, .diverge), (s', .diverge) => s.b = s'
      | _, _ => False) : SameEnd o st (chain chk fuel b [c] s) q := by
  simp only [chain]
  generalize call chk fuel b c s = r at h
  obtain ⟨s', r | e | _ | _⟩ := r <;> obtain ⟨t', q | e' | _ | _⟩ := q <;>
    simp_all only [SameEnd] <;> trivial

theorem SameEnd.andThen {o o' : Option Ptr} {st st' : List (Option Ptr)} {r : BS × Res Bld} {q : BW × Res (Option Ptr)}
    {k : Bld → BS → BS × Res Bld} {k' : Option Ptr → BW → BW × Res (Option Ptr)}
    (h : SameEnd o st r q) (hk : ∀ cur s, SameEnd o' st' (k ⟨cur, o⟩ ⟨s, st⟩) (k' cur s)) :
    SameEnd o' st' (andThen r k) (BM.bind (fun _ => q) k' q.1) := by
  obtain ⟨s, r | e | _ | _⟩ := r <;> obtain ⟨t, q | e' | _ | _⟩ := q <;>
    simp_all [SameEnd, Builder.andThen, BM.bind]

theorem bind_eq {A B : Type} (m : BM A) (f : A → BM B) (s s' : BW) : m.bind f s = BM.bind (fun _ => m s) f s' := rfl

theorem makeCtors_eq (o : Ptr) (cs : List Ctor) (s : BW) :
    BM.lib (makeCtors chk fuel o cs) s =
      seqLib (cs.map fun c => Lazy.op chk fuel (.createConstructor o (ctorSignature c) true)) s := by
  induction cs generalizing s with
  | nil => rfl
  | cons c cs ih =>
    simp only [List.map, seqLib, makeCtors, BM.bind, BM.lib, LM.bind]
    generalize Lazy.op chk fuel (.createConstructor o (ctorSignature c) true) s.l = r
    obtain ⟨l, r | e | _ | _⟩ := r
    · exact ih ⟨l, s.elems⟩
    · rfl
    · rfl
    · rfl

theorem addBases_eq (o : Ptr) (bs : List (TypeId × Caster)) (s : BW) :
    BM.lib (addBases chk fuel o bs) s =
      seqLib (bs.flatMap fun (b : TypeId × Caster) =>
        [Lazy.op chk fuel (.registerType b.1), Lazy.op chk fuel (.addBase o b.1 b.2)]) s := by
  induction bs generalizing s with
  | nil => rfl
  | cons c cs ih =>
    obtain ⟨t, c⟩ := c
    simp only [List.flatMap_cons, List.cons_append, List.nil_append, seqLib, addBases, BM.bind, BM.lib, LM.bind]
    generalize Lazy.op chk fuel (.registerType t) s.l = r
    obtain ⟨l, r | e | _ | _⟩ := r
    · dsimp only
      generalize Lazy.op chk fuel (.addBase o t c) l = r
      obtain ⟨l, r | e | _ | _⟩ := r
      · exact ih ⟨l, s.elems⟩
      · rfl
      · rfl
      · rfl
    · rfl
    · rfl
    · rfl

/-- a library call in both -/
theorem lib_eq {A B : Type} (m : LM A) (s : BS) (k : A → BS → BS × Res B) :
    lib m s k = match BM.lib m s.b with
      | (b, .val a) => k a { s with b := b }
      | (b, .throw e) => ({ s with b := b }, .throw e)
      | (b, .ub) => ({ s with b := b }, .ub)
      | (b, .diverge) => ({ s with b := b }, .diverge) := by
  simp only [lib, BM.lib]
  cases (m s.b.l).2 <;> rfl


/-- an opening call, the body, `_end` -/
theorem scope_end {o r : Option Ptr} {st : List (Option Ptr)} {body : List Node} {s : BW}
    (ih : ∀ (cur : Option Ptr) (st : List (Option Ptr)) (s : BW),
      SameEnd r st (chain chk fuel ⟨cur, r⟩ (texts body) ⟨s, st⟩) (defines chk fuel r cur body s)) :
    SameEnd o st (chain chk fuel ⟨r, r⟩ (texts body ++ [.end]) ⟨s, o :: st⟩)
      ((defines chk fuel r r body).bind (fun _ => BM.pure o) s) := by
  rw [chain_append, bind_eq _ _ _ (defines chk fuel r r body s).1]
  refine SameEnd.andThen (ih r (o :: st) s) fun cur s => ?_
  exact ⟨rfl, rfl⟩

mutual
theorem define_same (x : Node) (o cur : Option Ptr) (st : List (Option Ptr)) (s : BW) :
    SameEnd o st (chain chk fuel ⟨cur, o⟩ x.text ⟨s, st⟩) (x.define chk fuel o cur s) := by
  match x with
  | .nmspace n body =>
    have ih := fun r cur st s => defines_same body r cur st s
    simp only [Node.text, Node.define, List.cons_append, chain, call]
    cases o with
    | none => exact rfl
    | some c =>
      simp only [lib_eq, BM.on]
      rw [bind_eq _ _ _ (BM.lib (Lazy.op chk fuel (.createNamespace c n)) s).1]
      generalize BM.lib (Lazy.op chk fuel (.createNamespace c n)) s = r
      obtain ⟨b, r | e | _ | _⟩ := r
      · exact scope_end (ih r)
      · exact ⟨rfl, rfl⟩
      · exact rfl
      · exact rfl
  | .cls n t k body =>
    have ih := fun r cur st s => defines_same body r cur st s
    simp only [Node.text, Node.define, List.cons_append, chain, call]
    cases o with
    | none => exact rfl
    | some c =>
      simp only [lib_eq, BM.on, makeCtors_eq]
      simp only [BM.bind]
      generalize BM.lib (Lazy.op chk fuel (.registerType t)) s = r
      obtain ⟨b, r | e | _ | _⟩ := r
      · dsimp only
        generalize BM.lib (Lazy.op chk fuel (.createClass c n t)) b = r
        obtain ⟨b, r | e | _ | _⟩ := r
        · dsimp only
          cases r with
          | none =>
            generalize k.ctors = cs
            cases cs with
            | nil => exact scope_end (ih none)
            | cons c cs => exact rfl
          | some p =>
            dsimp only
            have hm : (if k.ctors.isEmpty then BM.pure () else
                seqLib (List.map (fun c => Lazy.op chk fuel (.createConstructor p (ctorSignature c) true)) k.ctors) : BM Unit) =
                  seqLib (List.map (fun c => Lazy.op chk fuel (.createConstructor p (ctorSignature c) true)) k.ctors) := by
              cases k.ctors <;> rfl
            rw [hm]
            generalize seqLib (List.map (fun c => Lazy.op chk fuel (.createConstructor p (ctorSignature c) true)) k.ctors) b = r
            obtain ⟨b, r | e | _ | _⟩ := r
            · exact scope_end (ih (some p))
            · exact ⟨rfl, rfl⟩
            · exact rfl
            · exact rfl
        · exact ⟨rfl, rfl⟩
        · exact rfl
        · exact rfl
      · exact ⟨rfl, rfl⟩
      · exact rfl
      · exact rfl
  | .lazy body =>
    refine sameEnd_one ?_
    simp only [Node.define, call]
    cases o with
    | none => exact rfl
    | some c =>
      simp only [lib_eq, BM.on, BM.bind]
      generalize BM.lib (Lazy.install c body) s = r
      obtain ⟨b, r | e | _ | _⟩ := r <;> simp [BM.pure]
  | .base bs =>
    refine sameEnd_one ?_
    simp only [Node.define, call]
    cases o with
    | none =>
      cases bs with
      | nil => exact ⟨rfl, rfl⟩
      | cons b bs => exact rfl
    | some c =>
      simp only [lib_eq, BM.on, addBases_eq]
      have hm : (if bs.isEmpty then BM.pure () else
          seqLib (bs.flatMap fun (b : TypeId × Caster) =>
            [Lazy.op chk fuel (.registerType b.1), Lazy.op chk fuel (.addBase c b.1 b.2)]) : BM Unit) =
          seqLib (bs.flatMap fun (b : TypeId × Caster) =>
            [Lazy.op chk fuel (.registerType b.1), Lazy.op chk fuel (.addBase c b.1 b.2)]) := by
        cases bs <;> rfl
      rw [hm]
      simp only [BM.bind]
      generalize seqLib (bs.flatMap fun (b : TypeId × Caster) =>
        [Lazy.op chk fuel (.registerType b.1), Lazy.op chk fuel (.addBase c b.1 b.2)]) s = r
      obtain ⟨b, r | e | _ | _⟩ := r <;> simp [BM.pure]
  | .enum n =>
    refine sameEnd_one ?_
    simp only [Node.define, call]
    cases o with
    | none => exact rfl
    | some c =>
      simp only [lib_eq, BM.on]
      generalize BM.lib (Lazy.op chk fuel (.createEnum c n)) s = r
      obtain ⟨b, r | e | _ | _⟩ := r <;> simp
  | .element n v =>
    refine sameEnd_one ?_
    simp only [Node.define, call]
    cases cur with
    | none => exact rfl
    | some i =>
      simp only [BM.on]
      by_cases hk : s.l.w.kind i = some .enum
      · simp only [hk, if_true]
        cases (s.elems i).set n v <;> simp
      · simp only [hk, if_false]; simp
  | .ctor c =>
    refine sameEnd_one ?_
    simp only [Node.define, call]
    cases o with
    | none => exact rfl
    | some p =>
      simp only [lib_eq, BM.on, BM.bind]
      generalize BM.lib (Lazy.op chk fuel (.createConstructor p (ctorSignature c) true)) s = r
      obtain ⟨b, r | e | _ | _⟩ := r <;> simp [BM.pure]
  | .method n f =>
    refine sameEnd_one ?_
    simp only [Node.define, call]
    cases o with
    | none => exact rfl
    | some p =>
      simp only [lib_eq, BM.on, BM.bind]
      generalize BM.lib (Lazy.op chk fuel (.createMethod p (funcSignature n f) true)) s = r
      obtain ⟨b, r | e | _ | _⟩ := r <;> simp [BM.pure]
  | .property n =>
    refine sameEnd_one ?_
    simp only [Node.define, call]
    cases o with
    | none => exact rfl
    | some p =>
      simp only [lib_eq, BM.on, BM.bind]
      generalize BM.lib (Lazy.op chk fuel (.createProperty p n true)) s = r
      obtain ⟨b, r | e | _ | _⟩ := r <;> simp [BM.pure]
  | .attribute n v =>
    refine sameEnd_one ?_
    simp only [Node.define, call]
    cases cur with
    | none => exact ⟨rfl, rfl⟩
    | some i =>
      simp only [lib_eq, BM.bind]
      generalize BM.lib (Lazy.setAttr i n v) s = r
      obtain ⟨b, r | e | _ | _⟩ := r <;> simp [BM.pure]
theorem defines_same (xs : List Node) (o cur : Option Ptr) (st : List (Option Ptr)) (s : BW) :
    SameEnd o st (chain chk fuel ⟨cur, o⟩ (texts xs) ⟨s, st⟩) (defines chk fuel o cur xs s) := by
  match xs with
  | [] => exact ⟨rfl, rfl⟩
  | x :: xs =>
    simp only [texts, defines]
    rw [chain_append, bind_eq _ _ _ (x.define chk fuel o cur s).1]
    exact SameEnd.andThen (define_same x o cur st s) fun cur s => defines_same xs o cur st s
end

/-! ### parsing a chain -/

theorem levels_append (xs ys : List BCmd) : levels (xs ++ ys) = levels xs + levels ys := by
  induction xs with
  | nil => simp [levels]
  | cons x xs ih => simp [levels, ih]; omega

mutual
theorem levels_text (x : Node) : levels x.text = 0 := by
  match x with
  | .nmspace n body => simp [Node.text, levels, levels_append, level, levels_texts body]
  | .cls n t k body => simp [Node.text, levels, levels_append, level, levels_texts body]
  | .lazy _ | .base _ | .enum _ | .element _ _ | .ctor _ | .method _ _ | .property _ | .attribute _ _ =>
    simp [Node.text, levels, level]
theorem levels_texts (xs : List Node) : levels (texts xs) = 0 := by
  match xs with
  | [] => rfl
  | x :: xs => simp [texts, levels_append, levels_text x, levels_texts xs]
end

/-- what is left after reading nodes: nothing, an `_end` that closes nothing, or a scope never closed -/
def Stuck (rest : List BCmd) : Prop := rest = [] ∨ (∃ r, rest = .end :: r) ∨ 0 < levels rest

theorem parse (n : Nat) : ∀ cs : List BCmd, cs.length ≤ n → ∃ xs rest, cs = texts xs ++ rest ∧ Stuck rest := by
  induction n with
  | zero =>
    intro cs h
    have : cs = [] := List.eq_nil_of_length_eq_zero (by omega)
    exact ⟨[], [], by simp [this, texts], .inl rfl⟩
  | succ n ih =>
    intro cs h
    cases cs with
    | nil => exact ⟨[], [], rfl, .inl rfl⟩
    | cons c cs =>
      have hlen : cs.length ≤ n := by simpa using h
      obtain ⟨xs, rest, e, hs⟩ := ih cs hlen
      have leaf : ∀ x : Node, x.text = [c] → ∃ ys rest, c :: cs = texts ys ++ rest ∧ Stuck rest := fun x hx =>
        ⟨x :: xs, rest, by simp [texts, hx, e], hs⟩
      have scope : ∀ mk : List Node → Node, (∀ body, (mk body).text = c :: texts body ++ [.end]) → level c = 1 →
          ∃ ys rest, c :: cs = texts ys ++ rest ∧ Stuck rest := by
        intro mk hmk hl
        rcases hs with rfl | ⟨r, rfl⟩ | hp
        · refine ⟨[], c :: cs, rfl, .inr (.inr ?_)⟩
          simp [levels, hl, e, levels_append, levels_texts]
        · have hr : r.length ≤ n := by
            have := congrArg List.length e
            simp at this
            omega
          obtain ⟨ys, rest', e', hs'⟩ := ih r hr
          exact ⟨mk xs :: ys, rest', by simp [texts, hmk, e, e'], hs'⟩
        · refine ⟨[], c :: cs, rfl, .inr (.inr ?_)⟩
          simp [levels, hl, e, levels_append, levels_texts]
          omega
      cases c with
      | nmspace m => exact scope (.nmspace m) (fun _ => rfl) rfl
      | cls m t k => exact scope (.cls m t k) (fun _ => rfl) rfl
      | lazy b => exact leaf (.lazy b) rfl
      | base b => exact leaf (.base b) rfl
      | enum b => exact leaf (.enum b) rfl
      | element b v => exact leaf (.element b v) rfl
      | ctor b => exact leaf (.ctor b) rfl
      | method b f => exact leaf (.method b f) rfl
      | property b => exact leaf (.property b) rfl
      | «attribute» b v => exact leaf (.attribute b v) rfl
      | «end» => exact ⟨[], .end :: cs, rfl, .inr (.inl ⟨cs, rfl⟩)⟩

theorem wellNested_tree {cs : List BCmd} (h : WellNested cs) : ∃ xs, texts xs = cs := by
  obtain ⟨xs, rest, e, hs⟩ := parse cs.length cs (by omega)
  rcases hs with rfl | ⟨r, rfl⟩ | hp
  · exact ⟨xs, by simpa using e.symm⟩
  · exfalso
    have := h.1 (texts xs ++ [.end]) r (by simp [e])
    simp [levels_append, levels_texts, levels, level] at this
  · exfalso
    have := h.2
    rw [e, levels_append, levels_texts] at this
    omega

theorem levels_ends (d : Nat) : levels (List.replicate d .end) = -(d : Int) := by
  induction d with
  | zero => rfl
  | succ d ih => simp [List.replicate_succ, levels, level, ih]; omega

theorem NoExtraEnd.append {xs ys : List BCmd} (hx : NoExtraEnd xs) (h0 : 0 ≤ levels xs)
    (hy : ∀ pre post, ys = pre ++ post → 0 ≤ levels xs + levels pre) : NoExtraEnd (xs ++ ys) := by
  intro pre post e
  rcases List.append_eq_append_iff.1 e with ⟨a, rfl, e2⟩ | ⟨a, rfl, e2⟩
  · rw [levels_append]
    exact hy a post e2
  · exact hx pre a rfl

theorem noExtraEnd_one {c : BCmd} (h : 0 ≤ level c) : NoExtraEnd [c] := by
  intro pre post e
  cases pre with
  | nil => simp [levels]
  | cons d pre =>
    simp only [List.cons_append, List.cons.injEq] at e
    obtain ⟨rfl, e⟩ := e
    have : pre = [] := by cases pre <;> simp_all
    subst this
    simpa [levels] using h

theorem noExtraEnd_scope {c : BCmd} {body : List BCmd} (hl : level c = 1) (hb : NoExtraEnd body) (h0 : levels body = 0) :
    NoExtraEnd (c :: body ++ [.end]) := by
  have h1 : NoExtraEnd ([c] ++ body) := NoExtraEnd.append (noExtraEnd_one (c := c) (by omega)) (by simp [levels, hl]) fun pre post e => by
    have := hb pre post e
    simp [levels, hl]; omega
  refine NoExtraEnd.append h1 (by simp [levels, hl, h0]) fun pre post e => ?_
  cases pre with
  | nil => simp [levels, hl, h0]
  | cons d pre =>
    simp only [List.cons_append, List.cons.injEq] at e
    obtain ⟨rfl, e⟩ := e
    have : pre = [] := by
      cases pre with
      | nil => rfl
      | cons _ _ => simp at e
    subst this
    have he : level .end = -1 := rfl
    simp [levels, he, hl, h0]

mutual
theorem noExtraEnd_text (x : Node) : NoExtraEnd x.text := by
  match x with
  | .nmspace n body => exact noExtraEnd_scope rfl (noExtraEnd_texts body) (levels_texts body)
  | .cls n t k body => exact noExtraEnd_scope rfl (noExtraEnd_texts body) (levels_texts body)
  | .lazy _ | .base _ | .enum _ | .element _ _ | .ctor _ | .method _ _ | .property _ | .attribute _ _ =>
    exact noExtraEnd_one (by simp [level])
theorem noExtraEnd_texts (xs : List Node) : NoExtraEnd (texts xs) := by
  match xs with
  | [] =>
    intro pre post e
    have : pre = [] := by cases pre <;> simp_all [texts]
    simp [this, levels]
  | x :: xs =>
    exact NoExtraEnd.append (noExtraEnd_text x) (by simp [levels_text]) fun pre post e => by
      have := noExtraEnd_texts xs pre post e
      simp [levels_text]; omega
end

/-- a chain with open scopes is well nested once they are closed -/
theorem NoExtraEnd.close {cs : List BCmd} (h : NoExtraEnd cs) {d : Nat} (hd : levels cs = d) :
    WellNested (cs ++ List.replicate d .end) := by
  refine ⟨fun pre post e => ?_, by rw [levels_append, levels_ends, hd]; omega⟩
  rcases List.append_eq_append_iff.1 e with ⟨a, rfl, e2⟩ | ⟨a, rfl, e2⟩
  · obtain ⟨d', hd', rfl⟩ : ∃ d', d' ≤ d ∧ a = List.replicate d' .end := by
      have := List.append_eq_replicate_iff.1 e2.symm
      exact ⟨a.length, by omega, this.2.1⟩
    rw [levels_append, levels_ends, hd]
    omega
  · exact h pre a rfl

/-- closing calls change nothing in the library -/
theorem ends_state (d : Nat) (b : Bld) (s : BS) : (chain chk fuel b (List.replicate d .end) s).1.b = s.b := by
  induction d generalizing b s with
  | zero => rfl
  | succ d ih =>
    simp only [List.replicate_succ, chain, call]
    cases hs : s.stack with
    | nil => rfl
    | cons c st => exact ih _ _

theorem lib_stack {A B : Type} {m : LM A} {s : BS} {k : A → BS → BS × Res B} {P : BS × Res B → Prop}
    (h : ∀ a s', s'.stack = s.stack → P (k a s')) (hP : ∀ s' r, (∀ b, r ≠ .val b) → P (s', r)) : P (lib m s k) := by
  unfold lib
  dsimp only
  split
  · exact h _ _ rfl
  · exact hP _ _ (by simp)
  · exact hP _ _ (by simp)
  · exact hP _ _ (by simp)

/-- each call that ends normally changes the height of the stack by its level -/
theorem call_stack (b : Bld) (c : BCmd) (s : BS) :
    ∀ r, (call chk fuel b c s).2 = .val r → ((call chk fuel b c s).1.stack.length : Int) = s.stack.length + level c := by
  have same : ∀ {A : Type} (m : LM A) (s : BS) (f : A → Bld × Bld),
      ∀ r, (lib m s fun a s => (s, .val (f a))).2 = .val r →
        ((lib m s fun a s => (s, .val (f a))).1.stack.length : Int) = s.stack.length := by
    intro A m s f
    refine lib_stack (P := fun x => ∀ r, x.2 = .val r → (x.1.stack.length : Int) = s.stack.length) ?_ ?_
    · intro a s' hs r _
      simp [hs]
    · intro s' r hr r' e
      exact absurd e (hr r')
  cases c with
  | «attribute» n v =>
    simp only [call, level, Int.add_zero]
    cases b.item with
    | none => simp
    | some i => exact same _ s _
  | nmspace n =>
    simp only [call, level]
    cases b.cont with
    | none => simp
    | some o =>
      intro r h
      have := same (Lazy.op chk fuel (.createNamespace o n)) { s with stack := some o :: s.stack } (fun r => (⟨r, r⟩, ⟨r, r⟩)) r h
      rw [this]
      simp
  | cls n t k =>
    simp only [call, level]
    cases b.cont with
    | none => simp
    | some o =>
      refine lib_stack (P := fun x => ∀ r, x.2 = .val r → (x.1.stack.length : Int) = s.stack.length + 1) ?_
        (fun s' r hr r' e => absurd e (hr r'))
      intro _ s1 h1
      refine lib_stack (P := fun x => ∀ r, x.2 = .val r → (x.1.stack.length : Int) = s.stack.length + 1) ?_
        (fun s' r hr r' e => absurd e (hr r'))
      intro p s2 h2
      have hs : (s2.stack.length : Int) = s.stack.length + 1 := by rw [h2, h1]; simp
      cases p with
      | none =>
        dsimp only
        split
        · intro _ _; exact hs
        · simp
      | some p =>
        dsimp only
        intro r h
        rw [same _ s2 _ r h, hs]
  | lazy body =>
    simp only [call, level, Int.add_zero]
    cases b.cont with
    | none => simp
    | some o => exact same _ s _
  | base bs =>
    simp only [call, level, Int.add_zero]
    cases b.cont with
    | none => dsimp only; split <;> simp
    | some o => exact same _ s _
  | enum n =>
    simp only [call, level, Int.add_zero]
    cases b.cont with
    | none => simp
    | some o => exact same _ s _
  | element n v =>
    simp only [call, level, Int.add_zero]
    cases b.item with
    | none => simp
    | some i =>
      dsimp only
      split
      · split <;> simp
      · simp
  | ctor c =>
    simp only [call, level, Int.add_zero]
    cases b.cont with
    | none => simp
    | some o => exact same _ s _
  | method n f =>
    simp only [call, level, Int.add_zero]
    cases b.cont with
    | none => simp
    | some o => exact same _ s _
  | property n =>
    simp only [call, level, Int.add_zero]
    cases b.cont with
    | none => simp
    | some o => exact same _ s _
  | «end» =>
    simp only [call, level]
    cases hs : s.stack with
    | nil => simp
    | cons c st => simp; omega

theorem chain_stack (cs : List BCmd) (b : Bld) (s : BS) :
    ∀ r, (chain chk fuel b cs s).2 = .val r →
      ((chain chk fuel b cs s).1.stack.length : Int) = s.stack.length + levels cs := by
  induction cs generalizing b s with
  | nil => simp [chain, levels]
  | cons c cs ih =>
    intro r
    have hc := call_stack (chk := chk) (fuel := fuel) b c s
    simp only [chain, levels]
    generalize call chk fuel b c s = q at hc
    obtain ⟨s', q | e | _ | _⟩ := q
    · intro h
      rw [ih _ _ r h, hc q rfl]
      omega
    · simp
    · simp
    · simp

end
end Rtti.Builder
