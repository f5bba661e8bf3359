import Verif.Model.Base
/-!
Model of `src/liveseq/liveness.c` and `src/liveseq/liveseq.c`. Vectors are lists (justified by C01).
-/
namespace Umlcc

/-- `Liveness`, liveseq/liveness.h: `first_def_index`, `last_use_index` -/
structure Live where
  first : Nat
  last : Nat
  deriving DecidableEq, Repr

/-- `Liveseq`, liveseq/liveseq.h: `livenesses`, `index`, `liveness_index` -/
structure Liveseq where
  lives : List Live
  index : Nat
  cur : Int
  deriving DecidableEq, Repr

namespace Liveseq

/-- `new_liveseq`, liveseq.c:11-17 -/
def new : Liveseq := ⟨[], 0, -1⟩

/-- `liveseq_isalive`, liveseq.c:27-42. `vector_at` out of range would be a NULL dereference. -/
def isAlive (s : Liveseq) : Out Bool :=
  if s.lives.length = 0 ∨ s.cur ≥ s.lives.length then .ok false
  else
    let i : Int := if s.cur < 0 then 0 else s.cur
    match s.lives[i.toNat]? with
    | none => .ub
    | some l => .ok (decide (l.first ≤ s.index ∧ s.index < l.last))

/-- `liveseq_goto_next`, liveseq.c:44-73 -/
def next (s : Liveseq) : Out Liveseq :=
  let index := s.index + 1
  let len : Int := s.lives.length
  if len = 0 ∨ s.cur ≥ len then .ok { s with index := index }
  else if s.cur < 0 then
    match s.lives[0]? with
    | none => .ub
    | some l => .ok { s with index := index, cur := if index ≥ l.first then 0 else s.cur }
  else
    match s.lives[s.cur.toNat]? with
    | none => .ub
    | some l =>
      if s.cur = len - 1 then .ok { s with index := index, cur := if index ≥ l.last then len else s.cur }
      else
        match s.lives[(s.cur + 1).toNat]? with
        | none => .ub
        | some n => .ok { s with index := index, cur := if index ≥ n.first then s.cur + 1 else s.cur }

/-- `n` calls of `liveseq_goto_next` (x64gen/util.c:78-84 calls it once per emitted instruction) -/
def nextN (s : Liveseq) : Nat → Out Liveseq
  | 0 => .ok s
  | n + 1 => do let s ← nextN s n; next s

end Liveseq
end Umlcc
