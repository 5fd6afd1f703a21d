import Verif.Props.Exact
import Verif.Props.Invoke
/-! C11 and C47, exactly. -/
set_option autoImplicit false
namespace Rtti.Props
open Rtti Spec Reg Val

/-- C11, exactly: after any calls a conversion runs a function if and only if a converter is registered. The function it runs is that
    of the first call there ever was for this pair with the type of functor in force, so it is the function registered last if and
    only if no other came first. -/
theorem C11_conversion_exact (nm : RType → Str) (hn : Function.Injective nm) (h0 : ∀ T, nm T ≠ []) (ops : List RegOp)
    (hc : ∀ op ∈ ops, TypedCall op) (S T : RType) :
    ∃ r r' outs out, Reg.init.run nm ops = .val (r, outs) ∧ r.step nm (.convertT S T) = .val (r', .ran out) ∧
      (out = none ↔ present ops S T = none) ∧
      ∀ f g, present ops S T = some (f, g) →
        (∃ fn, out = some fn ∧ FirstFunction ops S T f fn) ∧ (out = some g ↔ FirstFunction ops S T f g) := by
  obtain ⟨r', outs', e⟩ := C11_total nm (ops ++ [.convertT S T]) (by
    intro op hop
    rw [List.mem_append, List.mem_singleton] at hop
    rcases hop with hop | rfl
    · exact hc op hop
    · trivial)
  obtain ⟨r, outs, o, e1, e2, rfl⟩ := run_snoc_val e
  obtain ⟨o1, t1, c1⟩ := typed_run hn h0 _ hc e1
  have := (typed_step hn h0 o1 t1 c1 (by trivial) e2).2.2
  rw [show o = _ from this] at e2
  refine ⟨r, r', outs, _, e1, e2, ?_⟩
  cases hp : present ops S T with
  | none => exact ⟨by simp, nofun⟩
  | some x =>
    obtain ⟨f, g⟩ := x
    obtain ⟨S', T', hm, hs⟩ := present_mem hp
    have hf : ∃ fn, firstFn ops S T f = some fn := by
      cases h : firstFn ops S T f with
      | some fn => exact ⟨fn, rfl⟩
      | none =>
        unfold firstFn at h
        have := List.findSome?_eq_none_iff.1 h _ hm
        simp [hs] at this
    obtain ⟨fn, hf⟩ := hf
    simp only [Option.bind_some, hf, reduceCtorEq, true_and]
    intro f' g' h
    cases h
    refine ⟨⟨fn, rfl, (firstFn_iff ops S T f fn).1 hf⟩, ?_⟩
    rw [← firstFn_iff, hf]

/- the function in force is 8, the one that came first with this type of functor 7 -/
example : present [.regT Ex.vi Ex.vX 0 7, .unregT Ex.vi Ex.vX, .regT Ex.vi Ex.vX 0 8] Ex.vi Ex.vX = some (0, 8) ∧
    FirstFunction [.regT Ex.vi Ex.vX 0 7, .unregT Ex.vi Ex.vX, .regT Ex.vi Ex.vX 0 8] Ex.vi Ex.vX 0 7 := by
  have hs : SamePair Ex.vi Ex.vX Ex.vi Ex.vX := samePair_iff.2 ⟨rfl, rfl⟩
  refine ⟨?_, ⟨[], _, _, _, rfl, hs, by simp⟩⟩
  have h1 : ¬ IsVoid Ex.vi.t := by rintro ⟨b, q, e, k⟩; cases e; cases k
  have h2 : ¬ IsVoid Ex.vX.t := by rintro ⟨b, q, e, k⟩; cases e; cases k
  simp [present, hs, h1, h2]

/-- C47, exactly: the number of arguments is judged right for every number of parameters if and only if no argument follows a missing
    one. -/
theorem C47_exact (args : List Arg) (hl : args.length ≤ 10) :
    (∀ n, n ≤ 10 → ((∃ as, pack n args = .ok as) ↔ Supplied args n)) ↔ NoGaps args := by
  constructor
  · intro h
    have hlen : (args.takeWhile fun a => !a.empty).length ≤ 10 :=
      Nat.le_trans (List.takeWhile_sublist _).length_le hl
    refine ⟨_, (h _ hlen).1 ?_⟩
    rw [(C47_leading args hl _ hlen).1]
    refine ⟨args.takeWhile fun a => !a.empty, args.dropWhile fun a => !a.empty, List.takeWhile_append_dropWhile.symm, rfl,
      fun a ha => by
        have := List.all_takeWhile (l := args) (p := fun a : Arg => !a.empty)
        simpa using List.all_eq_true.1 this a ha, ?_⟩
    cases hd : args.dropWhile fun a => !a.empty with
    | nil => exact .inl rfl
    | cons a r =>
      refine .inr ⟨a, r, rfl, ?_⟩
      have := List.head?_dropWhile_not (fun a : Arg => !a.empty) args
      rw [hd] at this
      simpa using this
  · intro hg n hn
    let f : Fn := ⟨none, false, List.replicate n ⟨.none, Ex.int⟩, none⟩
    have hf : f.params.length = n := by simp [f]
    have := (C47_partial ExV.env ExI.nest f args hl (by rw [hf]; exact hn) hg).1
    rwa [hf] at this

example : NoGaps [ExI.anInt, makeArg 0 (.missing false)] ∧ ¬ NoGaps [makeArg 0 (.missing false), ExI.anInt] := by
  refine ⟨⟨1, [ExI.anInt], [makeArg 0 (.missing false)], rfl, rfl, by simp; decide, by simp; decide⟩, ?_⟩
  rintro ⟨n, g, r, e, _, h1, h2⟩
  cases g with
  | nil =>
    simp at e
    have := h2 ExI.anInt (by rw [← e]; simp)
    revert this; decide
  | cons a g =>
    injection e with e _
    have := h1 a (.head _)
    rw [← e] at this
    revert this; decide

end Rtti.Props
