import Verif.Model.Immc
import Verif.Model.Liveseq
/-!
Model of `src/regalloc/regalloc.c` and `src/regalloc/basicblock.c`.

Vectors are lists (justified by C01); sets and maps are the hash tables of `Verif.Model.Map`, so their quirks
(C03, C05) are part of this model. `vector_at` out of range is NULL; using the NULL is `ub`.
Indices of instructions are absolute positions in the whole instruction vector (`immc_offset + index`).
-/
namespace Umlcc
namespace Regalloc

abbrev ISet := HSet Int

/-- `BasicBlock`, regalloc/basicblock.h -/
structure Block where
  immcs : List Immc
  input : ISet
  output : ISet
  succ : ISet
  deriving DecidableEq

/-- `new_basicblock`, basicblock.c:10-17 -/
def newBlock (is : List Immc) : Block := ⟨is, HMap.new, HMap.new, HMap.new⟩

/-- regalloc.c:125-129: a block without instructions is not recorded -/
def emit (b : List Immc) : List (List Immc) := if b = [] then [] else [b]

/-- `create_basic_blocks`, regalloc.c:98-135: `cur` is `block_immcs`, the list the instructions from `index` on.
When the outer loop ends (`index >= immcs_len`) a block that was begun but not finished is dropped. -/
def createBlocks (cur : List Immc) : List Immc → List (List Immc)
  | [] => emit cur
  | i :: is =>
    if i.isJump then emit (cur ++ [i]) ++ (if is = [] then [] else createBlocks [] is)
    else if i.isLabel then emit cur ++ (if is = [] then [] else createBlocks [i] is)
    else createBlocks (cur ++ [i]) is

/-- first loop of `connect_basic_blocks`, regalloc.c:141-151, from block number `id` on -/
def labelMap (m : HMap Name Int) : Nat → List Block → Out (HMap Name Int)
  | _, [] => .ok m
  | id, b :: bs =>
    match b.immcs[0]? with
    | none => .ub
    | some (Immc.label _ _ name) => do let m ← m.add hashName name (id : Int); labelMap m (id + 1) bs
    | some _ => labelMap m (id + 1) bs

/-- the successor reached by the jump that ends the block, regalloc.c:155-159 -/
def jumpSucc (m : HMap Name Int) (succ : ISet) (tail : Immc) : Out ISet :=
  if tail.isJump then
    match tail with
    | .inst ⟨_, some (.label name), _, _⟩ => do
      let r ← m.get hashName name
      match r with
      | none => .ub
      | some t => HSet.add hashInteger succ t
    | _ => .ub
  else .ok succ

/-- body of the second loop of `connect_basic_blocks`, regalloc.c:154-163 -/
def succOf (m : HMap Name Int) (nblocks : Nat) (id : Nat) (b : Block) : Out ISet :=
  match b.immcs.getLast? with
  | none => .ub
  | some tail => do
    let s ← jumpSucc m b.succ tail
    if id + 1 < nblocks ∧ tail.isJmp = false then
      HSet.add hashInteger s ((id : Int) + 1)
    else pure s

/-- second loop of `connect_basic_blocks`, regalloc.c:153-164 -/
def connectLoop (m : HMap Name Int) (nblocks : Nat) : Nat → List Block → Out (List Block)
  | _, [] => .ok []
  | id, b :: bs => do
    let s ← succOf m nblocks id b
    let bs ← connectLoop m nblocks (id + 1) bs
    pure ({ b with succ := s } :: bs)

/-- `connect_basic_blocks`, regalloc.c:137-168 -/
def connect (bs : List Block) : Out (List Block) := do
  let m ← labelMap HMap.new 0 bs
  connectLoop m bs.length 0 bs

/-- add the register of a `REG`/`PTR` source operand, regalloc.c:214-222 -/
def addUse (s : ISet) : Option Ope → Out ISet
  | some (.reg _ id _) => HSet.add hashInteger s id
  | some (.ptr id) => HSet.add hashInteger s id
  | _ => .ok s

/-- effect of the destination operand, regalloc.c:206-212 -/
def flowDst (s : ISet) : Option Ope → Out ISet
  | some (.reg _ id _) => HMap.remove hashInteger s id
  | some (.ptr id) => HSet.add hashInteger s id
  | _ => .ok s

/-- body of the backward loop of `update_register_flow`, regalloc.c:202-222 -/
def flowInst (s : ISet) : Immc → Out ISet
  | .inst i => do
    let s ← flowDst s i.dst
    let s ← addUse s i.fst
    addUse s i.snd
  | _ => .ok s

/-- backward loop of `update_register_flow`, regalloc.c:200-223; the argument is the block reversed -/
def flowLoop (s : ISet) : List Immc → Out ISet
  | [] => .ok s
  | i :: is => do let s ← flowInst s i; flowLoop s is

/-- union over the successors, regalloc.c:190-197 -/
def unionSucc (bs : List Block) : List Int → ISet → Out ISet
  | [], acc => .ok acc
  | t :: ts, acc =>
    match if 0 ≤ t then bs[t.toNat]? else none with
    | none => .ub
    | some b => do let acc ← HSet.union hashInteger acc b.input; unionSucc bs ts acc

/-- `update_register_flow`, regalloc.c:186-235, for block number `id`: new graph and the convergence flag -/
def updateFlow (bs : List Block) (id : Nat) : Out (List Block × Bool) :=
  match bs[id]? with
  | none => .ub
  | some b => do
    let output ← unionSucc bs (HSet.elems b.succ) HMap.new
    let input ← flowLoop output b.immcs.reverse
    let ci ← HSet.equals hashInteger input b.input
    let co ← HSet.equals hashInteger output b.output
    pure (bs.set id { b with input := input, output := output }, ci && co)

/-- `for (block_id = blocks_len - 1; block_id >= 0; block_id--)`, regalloc.c:177-181, `n` blocks left -/
def flowPass (bs : List Block) (term : Bool) : Nat → Out (List Block × Bool)
  | 0 => .ok (bs, term)
  | n + 1 => do
    let (bs, c) ← updateFlow bs n
    flowPass bs (term && c) n

/-- `analyze_register_flow`, regalloc.c:170-184. `fuel` bounds the number of passes; `hang` if not terminated. -/
def analyzeFlow (bs : List Block) : Nat → Out (List Block)
  | 0 => .hang
  | fuel + 1 => do
    let (bs, t) ← flowPass bs true bs.length
    if t then pure bs else analyzeFlow bs fuel

/-- `create_control_flow_graph`, regalloc.c:86-96 -/
def controlFlow (code : List Immc) (fuel : Nat) : Out (List Block) := do
  let bs ← connect ((createBlocks [] code).map newBlock)
  analyzeFlow bs fuel

/-- `vector_at(livenesses, id)->last_use_index = idx` -/
def setLast (lv : List Live) (id : Int) (idx : Nat) : Out (List Live) :=
  match if 0 ≤ id then lv[id.toNat]? else none with
  | none => .ub
  | some l => .ok (lv.set id.toNat { l with last := idx })

/-- regalloc.c:262-272: a `REG`/`PTR` source operand is used at `idx` -/
def useOpe (lv : List Live) (idx : Nat) : Option Ope → Out (List Live)
  | some (.reg _ id _) => setLast lv id idx
  | some (.ptr id) => setLast lv id idx
  | _ => .ok lv

/-- regalloc.c:274-281: the destination operand; `vector_fill` (vector.c:58-73) extends the vector with copies -/
def defOpe (lv : List Live) (idx : Nat) : Option Ope → Out (List Live)
  | some (.reg _ id _) => .ok (lv ++ List.replicate ((id + 1).toNat - lv.length) ⟨idx, idx⟩)
  | some (.ptr id) => setLast lv id idx
  | _ => .ok lv

/-- one iteration of regalloc.c:256-282 -/
def liveInst (lv : List Live) (idx : Nat) : Immc → Out (List Live)
  | .inst i => do
    let lv ← useOpe lv idx i.fst
    let lv ← useOpe lv idx i.snd
    defOpe lv idx i.dst
  | _ => .ok lv

/-- loop regalloc.c:256-282 over a block -/
def liveLoop (lv : List Live) (idx : Nat) : List Immc → Out (List Live)
  | [] => .ok lv
  | i :: is => do let lv ← liveInst lv idx i; liveLoop lv (idx + 1) is

/-- loop regalloc.c:285-289 over the items of `output` -/
def liveOutput (lv : List Live) (idx : Nat) : List Int → Out (List Live)
  | [] => .ok lv
  | id :: ids => do let lv ← setLast lv id idx; liveOutput lv idx ids

/-- `analyze_register_liveness`/`update_register_liveness`, regalloc.c:237-290 -/
def liveBlocks (lv : List Live) (off : Nat) : List Block → Out (List Live)
  | [] => .ok lv
  | b :: bs => do
    let lv ← liveLoop lv off b.immcs
    let lv ← liveOutput lv (off + b.immcs.length) (HSet.elems b.output)
    liveBlocks lv (off + b.immcs.length) bs

/-- `free_unused_register`, regalloc.c:319-334; a status is `none` for -1 -/
def freeUnused (lv : List Live) (cur : Live) : List (Option Nat) → Out (List (Option Nat))
  | [] => .ok []
  | none :: ss => do let ss ← freeUnused lv cur ss; pure (none :: ss)
  | some u :: ss =>
    match lv[u]? with
    | none => .ub
    | some l => do
      let ss ← freeUnused lv cur ss
      pure ((if l.last ≤ cur.first then none else some u) :: ss)

/-- the scan of `allocate_real_register`, regalloc.c:340-350: first free register -/
def firstFree : List (Option Nat) → Option Nat
  | [] => none
  | none :: _ => some 0
  | some _ :: ss => (firstFree ss).map (· + 1)

/-- the scan of `spil_register`, regalloc.c:363-374: `best` is
(`max_range_len`, spilled register if it is not the new one) -/
def spillScan (lv : List Live) (best : Int × Option (Nat × Nat)) : Nat → List (Option Nat) → Out (Int × Option (Nat × Nat))
  | _, [] => .ok best
  | _, none :: _ => .ub
  | r, some u :: ss =>
    match lv[u]? with
    | none => .ub
    | some l =>
      let len : Int := (l.last : Int) - l.first
      spillScan lv (if best.1 ≥ len then best else (len, some (r, u))) (r + 1) ss

/-- one iteration of `determine_allocation`, regalloc.c:307-313, with `allocate_real_register` (336-353) and
`spil_register` (355-384); an allocation is `none` for -1 -/
def allocStep (lv : List Live) (st : List (Option Nat)) (al : List (Option Nat)) (v : Nat) :
    Out (List (Option Nat) × List (Option Nat)) :=
  match lv[v]? with
  | none => .ub
  | some l => do
    let st ← freeUnused lv l st
    match firstFree st with
    | some r => pure (st.set r (some v), al.set v (some r))
    | none => do
      let (_, sp) ← spillScan lv ((l.last : Int) - l.first, none) 0 st
      match sp with
      | none => pure (st, al.set v none)
      | some (r, u) => pure (st.set r (some v), (al.set u none).set v (some r))

/-- loop of `determine_allocation`, regalloc.c:307-313: virtual registers `v, v+1, ..` (`n` of them) -/
def allocLoop (lv : List Live) (st al : List (Option Nat)) (v : Nat) : Nat → Out (List (Option Nat))
  | 0 => .ok al
  | n + 1 => do
    let (st, al) ← allocStep lv st al v
    allocLoop lv st al (v + 1) n

/-- `determine_allocation`, regalloc.c:292-317 -/
def allocate (lv : List Live) (nregs : Nat) : Out (List (Option Nat)) :=
  allocLoop lv (List.replicate nregs none) (List.replicate lv.length none) 0 lv.length

/-- new register id of an operand, regalloc.c:398-414 -/
def mapId (al : List (Option Nat)) (id : Int) : Out Int :=
  match if 0 ≤ id then al[id.toNat]? else none with
  | none => .ub
  | some none => .ok (-1)
  | some (some r) => .ok r

def mapOpe (al : List (Option Nat)) : Option Ope → Out (Option Ope)
  | some (.reg s id u) => do let id ← mapId al id; pure (some (.reg s id u))
  | some (.ptr id) => do let id ← mapId al id; pure (some (.ptr id))
  | o => .ok o

/-- body of `gen_allocated_immcs`, regalloc.c:392-415 -/
def mapImmc (al : List (Option Nat)) : Immc → Out Immc
  | .inst i => do
    let f ← mapOpe al i.fst
    let s ← mapOpe al i.snd
    let d ← mapOpe al i.dst
    pure (.inst ⟨i.op, d, f, s⟩)
  | i => .ok i

/-- `gen_allocated_immcs`, regalloc.c:386-419 -/
def genAllocated (al : List (Option Nat)) : List Immc → Out (List Immc)
  | [] => .ok []
  | i :: is => do let i ← mapImmc al i; let is ← genAllocated al is; pure (i :: is)

/-- `update_liveseqs`, regalloc.c:421-429, over the remaining virtual registers; an allocation -1 makes
`vector_at(liveseqs, -1)` NULL, which is dereferenced. -/
def updateLiveseqs (qs : List Liveseq) : List (Live × Option Nat) → Out (List Liveseq)
  | [] => .ok qs
  | (_, none) :: _ => .ub
  | (l, some r) :: rest =>
    match qs[r]? with
    | none => .ub
    | some q => updateLiveseqs (qs.set r { q with lives := q.lives ++ [l] }) rest

/-- one function (regalloc.c:45-58): its allocated code and the updated live sequences -/
def allocFunction (code : List Immc) (off : Nat) (nregs : Nat) (qs : List Liveseq) (fuel : Nat) :
    Out (List Immc × List Liveseq) := do
  let g ← controlFlow code fuel
  let lv ← liveBlocks [] off g
  let al ← allocate lv nregs
  let out ← genAllocated al code
  let qs ← updateLiveseqs qs (lv.zip al)
  pure (out, qs)

/-- does a new external begin here? regalloc.c:76 -/
def startsExternal : Immc → Bool
  | .label .normal _ _ => false
  | .label _ _ _ => true
  | _ => false

/-- `regalloc_allocate_regs`, regalloc.c:26-63 with `dequeue_external_immcs` (65-84);
`n` bounds the number of externals -/
def allocAll (nregs fuel : Nat) (acc : List Immc) (qs : List Liveseq) (off : Nat) :
    Nat → List Immc → Out (List Immc × List Liveseq)
  | 0, [] => .ok (acc, qs)
  | 0, _ => .hang
  | _ + 1, [] => .ok (acc, qs)
  | n + 1, i :: rest =>
    let ext := i :: rest.takeWhile (fun x => !startsExternal x)
    let rest' := rest.dropWhile (fun x => !startsExternal x)
    match i with
    | .label .function _ _ => do
      let (out, qs) ← allocFunction ext off nregs qs fuel
      allocAll nregs fuel (acc ++ out) qs (off + ext.length) n rest'
    | .label _ _ _ => allocAll nregs fuel (acc ++ ext) qs (off + ext.length) n rest'
    | _ => .ub

/-- the whole pass; `new_regalloc` with `num_real_regs` (regalloc.c:18-24), initial live sequences (line 30) -/
def run (code : List Immc) (nregs fuel : Nat) : Out (List Immc × List Liveseq) :=
  allocAll nregs fuel [] (List.replicate nregs Liveseq.new) 0 code.length code

end Regalloc
end Umlcc
