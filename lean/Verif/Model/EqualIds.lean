import Verif.Model.VariantIds
import Verif.Model.Equal
/-
Comparing and hashing variants as the code does it, through ids: `variant::operator==`, /repo/src/variant.cpp:91-114;
`variant::eq`, /repo/include/rtti/detail/variant_impl.h:458-499; `std::hash<variant>`, 566-580. `Model/Equal.lean` looks
at the types instead.

Simplifications as in `Model/VariantIds.lean` and `Model/Equal.lean`; the functions `allocate`, `destroy`, `compare_eq`
recorded for an id are those of the type the id was asked for, as there.
-/
set_option autoImplicit false
namespace Rtti.ClassFind
open Rtti.Val (Vnt Ret Cmp Buf Tmp Held)

/-- `variant::operator==`, variant.cpp:91-114 -/
def Prog.equal (nm : RType → Str) (U : Outside) (C : Cmp) (s : Prog) (v w : Vnt) : Ret Bool :=
  match v.held, w.held with
  | none, none => .ok true
  | none, some _ => .ok false
  | some _, none => .ok false
  | some h, some g =>
    let left := s.heldId nm v .lrefConst
    let right := s.heldId nm w .lrefConst
    (s.compat right left).bind fun c =>
      if !c then .ok false
      else (s.seen right).bind fun a => (s.seen left).bind fun b =>
        if a.decay = b.decay then
          Val.noThrow h.t (Val.compareEq (s.env nm U) C h.t g.t (if h.inPlace then v.self else v.ptr) (if a.desc.isArray then w.ptr else w.access))
        else .ok false

/-- go on if there is a result; `l`: what happened to the temporaries before -/
def andThen {A B : Type} (l : List Tmp) (x : Ret A) (f : A → Ret B × List Tmp) : Ret B × List Tmp :=
  match x with
  | .ok a => f a
  | .throw e => (.throw e, l)
  | .terminate => (.terminate, l)
  | .ub => (.ub, l)
  | .diverge => (.diverge, l)

/-- `MetaType::convert` of the object at `a` into a buffer for a `T`; if it succeeds the object of type `T` at `x` is
    compared with what was made, variant_impl.h:470-474, 488-495; see `Val.convertCompare` -/
def Prog.convertCompare (U : Outside) (C : Cmp) (s : Prog) (from_ to : TypeId) (T : CType) (a x : Addr) (b : Buf) : Ret (Option Bool) × List Tmp :=
  andThen [] (.lift (s.reg.convert from_ to)) fun r =>
    match r.2 with
    | none => (.ok none, [])
    | some fn =>
      let r := runConverter (U.fns fn).kind ((U.fns fn).call a)
      let made := if r.2 then [Tmp.construct b] else []
      if r.2 && T.isArray then (.ub, made)
      else match r.1 with
        | .exception => (.throw .user, made)
        | .returned false => (.ok none, made)
        | .returned true =>
          ((if !Val.hasEq T then .throw .runtimeError
            else (Val.lift (C.eqTmp T.fullDecay x (U.fns fn).fn a)).bind fun r => .ok (some r)), made ++ [.destroy b])

/-- `variant::eq<T>(value)`, variant_impl.h:458-499, `value` at `x` -/
def Prog.eq (nm : RType → Str) (U : Outside) (C : Cmp) (s : Prog) (v : Vnt) (t : CType) (x : Addr) : Ret Bool × List Tmp :=
  andThen [] (s.equal nm U C v ⟨some ⟨true, Val.addConst t⟩, 0, x⟩) fun same =>
    if same then (.ok true, [])
    else
      let self := s.heldId nm v .none
      let value := s.idNow nm ⟨.none, t⟩
      andThen [] (.lift (s.reg.hasConverter self value)) fun has =>
        let first := if has.2 then s.convertCompare U C self value t v.access x .stack else (.ok none, [])
        andThen first.2 first.1 fun r =>
          match r with
          | some r => (.ok r, first.2)
          | none =>
            andThen first.2 (.lift (s.reg.hasConverter value self)) fun has =>
              if !has.2 then (.ok false, first.2)
              else andThen (first.2 ++ [.alloc]) (s.seen self) fun o =>
                let second := s.convertCompare U C value self (v.type .none).t x (if o.desc.isArray then v.ptr else v.access) .heap
                match second.1 with
                | .ok (some r) => (.ok r, first.2 ++ .alloc :: second.2 ++ [.free])
                | .ok none => (.ok false, first.2 ++ .alloc :: second.2 ++ [.free])
                | .throw e => (.throw e, first.2 ++ .alloc :: second.2 ++ [.free])
                | .terminate => (.terminate, first.2 ++ .alloc :: second.2)
                | .ub => (.ub, first.2 ++ .alloc :: second.2)
                | .diverge => (.diverge, first.2 ++ .alloc :: second.2)

/-- `std::hash<variant>`, variant_impl.h:566-580: whether it is an array and how many bytes there are is asked of the id -/
def Prog.hash (nm : RType → Str) (C : Cmp) (H : List Nat → Nat) (s : Prog) (v : Vnt) : Ret Nat :=
  if v.held = none then .ok 0
  else (s.seen (s.heldId nm v .none)).bind fun o =>
    .ok (H (Val.bytes C (if o.desc.isArray then v.ptr else v.access) o.desc.size))

/-- the types whose ids are asked for by `operator==` -/
def compared (v w : Vnt) : List RType :=
  (match w.held with | none => [] | some h => [h.type .lrefConst]) ++ (match v.held with | none => [] | some h => [h.type .lrefConst])

end Rtti.ClassFind
