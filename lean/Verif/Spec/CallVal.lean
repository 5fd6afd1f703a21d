import Verif.Spec.CallMem
import Verif.Model.CallVal
/-
Calls whose result is returned by value, without memory: how they end, which value the result has, which objects and blocks they lose.
-/
set_option autoImplicit false
namespace Rtti.CallMem
open VMem

/-- the value in the result, of the value returned; `n`: the number of the next allocation; with the number of blocks lost -/
def resultS (P : Prog) (t n v : Nat) : Out Nat × Nat :=
  if (P.ty t).place ≠ .small ∧ P.oom n = true then (if (P.ty t).nothrowMove then .terminated else .threw, 0)
  else match moveS P t v with
    | .ok v' => (.ok v', 0)
    | o => (o, if (P.ty t).place = .small then 0 else 1)

/-- as `callS`, with the value of the result -/
def callValS (P : Prog) (t : Nat) (f : List Nat → Option Nat) : (n : Nat) → (vs : List Nat) → List Param → Out Nat × List Nat × Nat
  | n, vs, [] =>
    match f vs with
    | none => (.threw, [], 0)
    | some v => ((resultS P t n v).1, [], (resultS P t n v).2)
  | n, vs, .direct :: ps => callValS P t f n vs ps
  | n, vs, .value u src :: ps =>
    match toS P u src with
    | (.ok v, l) =>
      let r := callValS P t f n (vs ++ [v]) ps
      (r.1, l ++ r.2.1, r.2.2)
    | (o, l) => (o, l, 0)
  | n, vs, .dummy u src :: ps =>
    match toS P u src with
    | (.ok v, l) =>
      if (P.ty u).place ≠ .small ∧ P.oom n = true then (if (P.ty u).nothrowMove then .terminated else .threw, l, 0)
      else match moveS P u v with
      | .ok v' =>
        if (P.ty u).place = .small then
          match moveS P u v' with
          | .ok v'' =>
            let r := callValS P t f n (vs ++ [v'']) ps
            (r.1, l ++ u :: r.2.1, r.2.2)
          | _ => (.terminated, l, 0)
        else
          let r := callValS P t f (n + 1) (vs ++ [v']) ps
          (r.1, l ++ r.2.1, r.2.2)
      | o => (o, l, if (P.ty u).place = .small then 0 else 1)
    | (o, l) => (o, l, 0)

/-- what the result has: its object, and its block if it is not kept in the variant itself -/
def inResult (P : Prog) (t : Nat) : Out Nat → List Nat × Nat
  | .ok _ => ([t], if (P.ty t).place = .small then 0 else 1)
  | _ => ([], 0)

/-- the variant `y` owns an object of type `t` with this value, in the buffer or on the heap -/
def Owns (P : Prog) (s : State) (y t v : Nat) : Prop :=
  if (P.ty t).place = .small then ∃ id, s.env (some y) = some ⟨.own t, .obj id⟩ ∧ s.mem.objs id = some ⟨t, v⟩
  else ∃ b id, s.env (some y) = some ⟨.own t, .block b⟩ ∧ s.mem.blocks b = some (some id) ∧ s.mem.objs id = some ⟨t, v⟩

end Rtti.CallMem
