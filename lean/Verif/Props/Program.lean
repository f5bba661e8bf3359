import Verif.Lemma.UnitProgram
import Verif.Lemma.ExecMono
import Verif.Model.Main
/-!
C68: what the machine code of a whole program does is what C says, calls between its functions included.
-/
namespace Umlcc
namespace X86
open X64 (Item)
open CStm
open IMach (Val Mem)

variable {W : Type}

/-- what the stages of the compiler make of a source text: the typed tree, the code in the middle before and after register allocation, and the assembly code -/
structure Compiled (fuel : Nat) (src : List UInt8) (u : List SExt) (code out : List Immc) (qs : List Liveseq) (items : List Item) : Prop where
  tree : ∃ toks a, Lexer.tokenize src = .ok toks ∧ Main.ofParser (Parser.parse fuel (.unit []) (Parser.start toks)) = .ok a ∧ Res.resolve fuel a = .ok (some u)
  generated : Gen.generate u = .ok code
  allocated : Regalloc.run code 8 fuel = .ok (out, qs)
  translated : X64.generate out qs = .ok items

/-- whenever the compiler succeeds, there are such -/
theorem compiled_of {fuel : Nat} {src : List UInt8} {items : List Item} (h : Main.stages fuel src = .ok items) : ∃ u code out qs, Compiled fuel src u code out qs items := by
  unfold Main.stages at h
  cases h1 : Lexer.tokenize src with
  | ok toks =>
    rw [h1] at h
    change (Main.ofParser (Parser.parse fuel (.unit []) (Parser.start toks)) >>= _) = _ at h
    cases h2 : Main.ofParser (Parser.parse fuel (.unit []) (Parser.start toks)) with
    | ok a =>
      rw [h2] at h
      change (Res.resolve fuel a >>= _) = _ at h
      cases h3 : Res.resolve fuel a with
      | ok o =>
        rw [h3] at h
        cases o with
        | none => cases h
        | some u =>
          change (Gen.generate u >>= _) = _ at h
          cases h4 : Gen.generate u with
          | ok code =>
            rw [h4] at h
            change (Regalloc.run code 8 fuel >>= _) = _ at h
            cases h5 : Regalloc.run code 8 fuel with
            | ok y =>
              rw [h5] at h
              exact ⟨u, code, y.1, y.2, ⟨_, _, h1, h2, h3⟩, h4, h5, h⟩
            | _ => rw [h5] at h; cases h
          | _ => rw [h4] at h; cases h
      | _ => rw [h3] at h; cases h
    | _ => rw [h2] at h; cases h
  | _ => rw [h1] at h; cases h

/-- The machine code in memory, the functions outside and the functions of the translation unit belong together. No label is defined twice. -/
structure Loaded (P : Prog W) (I : Image W) (u : List SExt) (out : List Immc) (items : List Item) : Prop where
  labels : (labelNames items).Nodup
  functions : fnsOf P.sym (sizeIn out) u noVars = some P.fns
  linked : Linked I items
  symbols : I.host.sym = P.sym
  outside : Outside P I

/-- What C68 asks of one entry of a function `g` at depth `n + 1`: with the return address on the stack, the `n`-deep calls it makes as C says, the machine runs through the
whole program, as `run` says, just as C says, until it comes back to its caller. Executions that do not end keep the machine running: the number of items grows with the bound `k`
on the execution, with factor and summand that do not depend on it. -/
def EntryBy (run : Conf W → Nat → Option (Conf W)) (P : Prog W) (I : Image W) (n : Nat) (g : Fn) : Prop :=
  ∃ p, I.locate (P.sym g.name) = some p ∧ ∀ ok vs m, Free ok (P.stack (n + 1)) vs.length (m.regs .sp) → (∀ i v, vs[i]? = some v → (argAt m i).setWidth v.1.bits = v.2) →
    I.locate (load m (m.regs .sp) .quad) = none → ∃ L K, ∀ w k r M' w',
      execFunc (implOf (P.env (P.call n) g ok (m.regs .sp - 8) vs) P.lim) k g.scope g.name.val g.ps g.rt g.body vs (m.mem, w) = some (r, M', w') →
      let own := fun x => Near (m.regs .sp) (P.stack (n + 1)) (8 + 8 * (vs.length - 6)) x ∧ withFrame ok (m.regs .sp - 8) g.size x = false
      let back := fun (v : Option Val) => ∃ j m', run (.at p m w) j = some (.done (load m (m.regs .sp) .quad) m' w') ∧ m'.regs .sp = m.regs .sp + 8 ∧
        (∀ q ∈ sysvKept, m'.regs q = m.regs q) ∧ (∀ x, ¬ own x → m'.mem x = M' x) ∧ ∀ y, v = some y → get m' .ax y.1 = y.2
      match r with
      | .norm => back none
      | .ret v => back v
      | .more => ∃ j c, run (.at p m w) j = some c ∧ k ≤ j * L + K ∧ c.world = w' ∧ ∀ x, ¬ own x → c.mach.mem x = M' x
      | .brk | .cont => False

/-- the same for the items the compiler makes -/
def Entry (P : Prog W) (I : Image W) (items : List Item) (n : Nat) (g : Fn) : Prop := EntryBy (hops I items) P I n g

/-- C68 in full: all programs the compiler accepts; some number of bytes of stack is enough for every function -/
def C68_full : Prop := ∀ (W : Type) (fuel : Nat) (src : List UInt8) (u : List SExt) (code out : List Immc) (qs : List Liveseq) (items : List Item), Compiled fuel src u code out qs items →
  ∃ each, each < 2 ^ 32 ∧ ∀ (P : Prog W) (I : Image W), P.lim = false → P.each = each → Loaded P I u out items → ∀ n, P.stack (n + 1) < 2 ^ 61 → ∀ g ∈ P.fns, Entry P I items n g

theorem flat_world {I : Image W} (c : Conf W) : (I.flat c).world = c.world ∧ (I.flat c).mach = c.mach := by
  cases c with
  | «at» p m w => exact ⟨rfl, rfl⟩
  | done a m w =>
    simp only [Image.flat, Image.goto]
    split <;> exact ⟨rfl, rfl⟩

/-- C68 for programs all of whose functions pass the test of C65 or belong to the part of C71. -/
theorem C68_program_partial {fuel rounds : Nat} {src : List UInt8} {u : List SExt} {code out : List Immc} {qs : List Liveseq} {items : List Item} {P : Prog W} {I : Image W}
    (hc : Compiled fuel src u code out qs items) (hlim : P.lim = true) (hs : Loaded P I u out items) (hp : P.fns.all (proper out qs rounds P.each) = true) (n : Nat) (hn : P.stack (n + 1) < 2 ^ 61)
    (g : Fn) (hg : g ∈ P.fns) : Entry P I items n g := by
  rw [List.all_eq_true] at hp
  have good : ∀ g ∈ P.fns, ∀ vs : List Val, vs.length = paramCount g.ps → Good P I items g vs :=
    fun g hg vs hvs => good_of hc.generated hc.allocated hc.translated hs.labels hs.functions hs.linked hs.symbols hlim hg (hp g hg) hvs
  have hn' : P.stack n < 2 ^ 61 := by
    simp only [Prog.stack] at hn ⊢
    rw [Nat.succ_mul] at hn
    omega
  have ih := provides_all hs.outside hs.symbols (fun g hg vs ⟨_, _, _, _, he⟩ => good g hg vs (exec_count he)) n hn'
  obtain ⟨⟨p, -, hloc, -, -⟩, -⟩ := good g hg (List.replicate (paramCount g.ps) ⟨.long, 0⟩) (by simp)
  refine ⟨p, hloc, ?_⟩
  intro ok vs m hfree hargs hret
  by_cases hlen : vs.length = paramCount g.ps
  case neg =>
    refine ⟨0, 0, ?_⟩
    intro w k r M' w' he
    exact absurd (exec_count he) hlen
  obtain ⟨⟨p', need, hloc', hsz, hrun⟩, hT⟩ := good g hg vs hlen
  rw [hloc] at hloc'
  cases hloc'
  generalize hE : P.env (P.call n) g ok (m.regs .sp - 8) vs = E
  obtain ⟨hpn, hok, hserves, hent⟩ := setup hn hs.outside.abi hs.symbols hsz hT ih hfree hargs hE
  have hEok : E.ok = withFrame ok (m.regs .sp - 8) g.size := by rw [← hE]; rfl
  have hEargs : E.args = vs := by rw [← hE]; rfl
  have hglob : E.glob = P.sym := by rw [← hE]; rfl
  have hst : P.stack (n + 1) = P.stack n + P.each := by simp only [Prog.stack]; rw [Nat.succ_mul, Nat.add_assoc]
  obtain ⟨L, K, key⟩ := hrun E hglob hEargs
  rw [hEargs] at key
  refine ⟨L, K, ?_⟩
  intro w k r M' w' he
  have hd := key (nest I items n) (P.stack (n + 1) - 8) (P.stack n) (by omega) hT (by omega) hserves m m.mem w k r M' w' hent he
  intro own back
  have hpriv : ∀ x, ¬ own x → ¬ Priv E.bp g.size (P.stack (n + 1) - 8) (inSize vs.length) x := by
    intro x hx hpx
    cases hw : withFrame ok (m.regs .sp - 8) g.size x with
    | false => exact hx ⟨hpn x hpx, hw⟩
    | true => exact hok x (by rw [hEok]; exact hw) hpx
  have hhops := hops_of_ticks (I := I) (code := items) hs.linked.back n
  have fin : ∀ v, (∃ t a m', ticks (nest I items n) items (.at p m w) t = some (.done a m' w') ∧ Returned E g.size (P.stack (n + 1) - 8) (inSize vs.length) m M' v a m') → back v := by
    rintro v ⟨t, a, m', ht, hr⟩
    obtain ⟨j, -, hj⟩ := hhops t p m w _ ht
    refine ⟨j, m', ?_, hr.sp, hr.kept, fun x hx => hr.mem x (hpriv x hx), hr.result⟩
    rw [hj, hr.back]
    simp only [Image.flat, Image.goto, hret]
  cases r with
  | norm => exact fin none hd
  | ret v => exact fin v hd
  | brk => exact hd
  | cont => exact hd
  | more =>
    obtain ⟨t, c, ht, hk, hw, hm⟩ := hd
    obtain ⟨j, hj, hc⟩ := hhops t p m w _ ht
    refine ⟨j, _, hc, ?_, ?_, ?_⟩
    · exact Nat.le_trans hk (Nat.add_le_add_right (Nat.mul_le_mul_right L hj) K)
    · rw [(flat_world c).1, hw]
    · intro x hx
      rw [(flat_world c).2, hm x (hpriv x hx)]

/-- Calls with a meaning: the machine comes back with the result, having changed no bytes but those the call has to change and those of its own stack. -/
theorem C68_call_partial {fuel rounds : Nat} {src : List UInt8} {u : List SExt} {code out : List Immc} {qs : List Liveseq} {items : List Item} {P : Prog W} {I : Image W}
    (hc : Compiled fuel src u code out qs items) (hlim : P.lim = true) (hs : Loaded P I u out items) (hp : P.fns.all (proper out qs rounds P.each) = true) (n : Nat)
    (hn : P.stack n < 2 ^ 61) {ok : BitVec 64 → Bool} {t : BitVec 64} {vs : List Val} {s : Sfx} {M : Mem} {w : W} {y : Mem × W × BitVec 64} {g : Fn} (hg : P.fn t = some g)
    (h : P.call n ok t vs s M w = some y) : ∃ p, I.locate t = some p ∧ ∀ m, Free ok (P.stack n) vs.length (m.regs .sp) →
      (∀ i v, vs[i]? = some v → (argAt m i).setWidth v.1.bits = v.2) → (∀ a, ok a = true → m.mem a = M a) → I.locate (load m (m.regs .sp) .quad) = none →
      ∃ j m', hops I items (.at p m w) j = some (.done (load m (m.regs .sp) .quad) m' y.2.1) ∧ m'.regs .sp = m.regs .sp + 8 ∧ (∀ q ∈ sysvKept, m'.regs q = m.regs q) ∧
        get m' .ax s = y.2.2.setWidth s.bits ∧ (∀ a, ok a = true → m'.mem a = y.1 a) ∧
        ∀ a, ok a = false → ¬ Near (m.regs .sp) (P.stack n) (8 + 8 * (vs.length - 6)) a → m'.mem a = m.mem a := by
  rw [List.all_eq_true] at hp
  have good : ∀ g ∈ P.fns, ∀ vs : List Val, vs.length = paramCount g.ps → Good P I items g vs :=
    fun g hg vs hvs => good_of hc.generated hc.allocated hc.translated hs.labels hs.functions hs.linked hs.symbols hlim hg (hp g hg) hvs
  have ih := provides_all hs.outside hs.symbols (fun g hg vs ⟨_, _, _, _, he⟩ => good g hg vs (exec_count he)) n hn ok t vs s M w y h
  have hgm := List.mem_of_find?_eq_some hg
  have htg : P.sym g.name = t := by simpa using List.find?_some hg
  obtain ⟨⟨p, -, hloc, -, -⟩, -⟩ := good g hgm (List.replicate (paramCount g.ps) ⟨.long, 0⟩) (by simp)
  rw [htg] at hloc
  refine ⟨p, hloc, ?_⟩
  intro m hfree hargs hmem hret
  obtain ⟨m', h1, h2, h3, h4⟩ := ih.1 m hfree hargs hmem
  obtain ⟨k, rfl, ⟨j, hj⟩, hk, hsp⟩ := nest_in hloc h1
  obtain ⟨j', -, hj'⟩ := hops_of_ticks (I := I) (code := items) hs.linked.back k _ _ _ _ _ hj
  refine ⟨j', m', ?_, hsp, hk, h2, h3, h4⟩
  rw [hj']
  simp only [Image.flat, Image.goto, hret]

/-! ### examples -/

/-- the stages of the compiler, keeping what is in between -/
def compile (fuel : Nat) (src : List UInt8) : Option (List SExt × List Immc × List Immc × List Liveseq × List Item) :=
  match Lexer.tokenize src with
  | .ok toks => match Main.ofParser (Parser.parse fuel (.unit []) (Parser.start toks)) with
    | .ok a => match Res.resolve fuel a with
      | .ok (some u) => match Gen.generate u with
        | .ok code => match Regalloc.run code 8 fuel with
          | .ok (out, qs) => match X64.generate out qs with
            | .ok items => some (u, code, out, qs, items)
            | _ => none
          | _ => none
        | _ => none
      | _ => none
    | _ => none
  | _ => none

theorem compile_of {fuel : Nat} {src : List UInt8} {u : List SExt} {code out : List Immc} {qs : List Liveseq} {items : List Item}
    (h : compile fuel src = some (u, code, out, qs, items)) : Compiled fuel src u code out qs items := by
  unfold compile at h
  split at h <;> try cases h
  split at h <;> try cases h
  split at h <;> try cases h
  split at h <;> try cases h
  split at h <;> try cases h
  split at h <;> try cases h
  exact ⟨⟨_, _, ‹_›, ‹_›, ‹_›⟩, ‹_›, ‹_›, ‹_›⟩

/-- an address for every item; no functions outside -/
def imageOf (items : List Item) : Image Nat where
  host := ⟨fun n => BitVec.ofNat 64 (0x400000 + items.findIdx (isItemLabel n)), fun _ _ _ => none, fun p => BitVec.ofNat 64 (0x400000 + (p + 1))⟩
  locate a := if 0x400000 ≤ a.toNat ∧ a.toNat - 0x400000 ≤ items.length then some (a.toNat - 0x400000) else none

theorem imageOf_at {items : List Item} (h : items.length < 2 ^ 32) {p : Nat} (hp : p ≤ items.length) : (imageOf items).locate (BitVec.ofNat 64 (0x400000 + p)) = some p := by
  have : (BitVec.ofNat 64 (0x400000 + p)).toNat = 0x400000 + p := by rw [BitVec.toNat_ofNat]; exact Nat.mod_eq_of_lt (by omega)
  simp only [imageOf, this]
  rw [if_pos (by omega), Nat.add_sub_cancel_left]

theorem findIdx_label : ∀ {items : List Item} {p : Nat} {k : LblType} {v : Vis} {n : Name}, items[p]? = some (.label k v n) → (labelNames items).Nodup →
    items.findIdx (isItemLabel n) = p
  | [], _, _, _, _, h, _ => by simp at h
  | x :: xs, 0, _, _, _, h, _ => by
    rw [List.getElem?_cons_zero] at h
    cases h
    rw [List.findIdx_cons]
    simp [isItemLabel]
  | x :: xs, p + 1, k, v, n, h, hl => by
    rw [List.getElem?_cons_succ] at h
    have hm : n ∈ labelNames xs := List.mem_filterMap.2 ⟨_, List.mem_of_getElem? h, rfl⟩
    have ih := fun hxs => findIdx_label h hxs
    have hx : isItemLabel n x = false := by
      cases x with
      | label k' v' n' =>
        have hnd : (n' :: labelNames xs).Nodup := hl
        simp only [isItemLabel, decide_eq_false_iff_not]
        rintro rfl
        exact (List.nodup_cons.1 hnd).1 hm
      | _ => rfl
    rw [List.findIdx_cons, hx, ih]
    · rfl
    · cases x with
      | label k' v' n' =>
        have hnd : (n' :: labelNames xs).Nodup := hl
        exact (List.nodup_cons.1 hnd).2
      | _ => exact hl

theorem imageOf_linked {items : List Item} (h : items.length < 2 ^ 32) (hl : (labelNames items).Nodup) : Linked (imageOf items) items := by
  constructor
  · intro p v n hp
    have hlt := (List.getElem?_eq_some_iff.1 hp).1
    have : items.findIdx (isItemLabel n) = p := findIdx_label hp hl
    show (imageOf items).locate (BitVec.ofNat 64 (0x400000 + _)) = _
    rw [this]
    exact imageOf_at h (by omega)
  · intro p i hp _
    have hlt := (List.getElem?_eq_some_iff.1 hp).1
    exact imageOf_at h (by omega)

/-- the program of the translation unit in that memory -/
def progOf (u : List SExt) (out : List Immc) (items : List Item) (each : Nat) (lim : Bool) : Prog Nat where
  fns := (fnsOf (imageOf items).host.sym (sizeIn out) u noVars).getD []
  sym := (imageOf items).host.sym
  ext _ _ _ _ _ _ := none
  outside := 0
  each := each
  lim := lim

theorem progOf_loaded {u : List SExt} {out : List Immc} {items : List Item} {each : Nat} {lim : Bool} (h : items.length < 2 ^ 32) (hl : (labelNames items).Nodup)
    (hf : (fnsOf (imageOf items).host.sym (sizeIn out) u noVars).isSome = true) : Loaded (progOf u out items each lim) (imageOf items) u out items := by
  refine ⟨hl, ?_, imageOf_linked h hl, rfl, ?_, ?_⟩
  · simp only [progOf]
    cases hx : fnsOf (imageOf items).host.sym (sizeIn out) u noVars with
    | none => rw [hx] at hf; cases hf
    | some fs => rfl
  · intro p w t x y hxy
    cases hxy
  · intro ok t vs s M w y _ hy
    cases hy

deriving instance DecidableEq for Vars
deriving instance DecidableEq for Fn

/-- `int one(void) { return 1; }`, and a function that calls it -/
def oneSource : List UInt8 := X64.bytes "int one(void){return 1;}int main(void){return one()+41;}"

def oneName : Name := ⟨[111, 110, 101], by decide⟩
def mainName : Name := ⟨[109, 97, 105, 110], by decide⟩
def oneFn : Fn := ⟨oneName, .nil, .int, .cons (.stmt (.ret (some (.ilit .int ⟨.int, 1⟩)))) .nil, noVars, 0⟩
def mainBody : SItems := .cons (.stmt (.ret (some (.bin .add .int (.call .int (.un .addr (.ptr (.func .nil .int)) (.ident (.func .nil .int) [111, 110, 101])) .nil) (.ilit .int ⟨.int, 41⟩))))) .nil
def mainFn : Fn := ⟨mainName, .nil, .int, mainBody, ⟨[[([111, 110, 101], 0x400000)]], [[]], 0⟩, 0⟩

theorem free_nowhere {ok : BitVec 64 → Bool} (h : ∀ a, ok a = false) (room n : Nat) : Free ok room n 4104 := ⟨by decide, fun a _ => h a⟩

/-- calling `one` gives 1, wherever the stack is -/
theorem one_call {P : Prog Nat} {n : Nat} {ok : BitVec 64 → Bool} (h : ∀ a, ok a = false) {t : BitVec 64} (ht : P.fn t = some oneFn) (M : Mem) (w : Nat) :
    P.call (n + 1) ok t [] .long M w = some (M, w, 1) := by
  refine call_of ht ⟨⟨4104, free_nowhere h _ _⟩, fun _ _ => rfl, ?_⟩
  intro sp M0 _ hM
  exact ⟨5, .ret (some ⟨.long, 1⟩), M0, rfl, rfl, hM, fun _ _ => rfl⟩

/-- if calling `one` gives 1, executing `main` gives 42 -/
theorem main_exec (E : IMach.Env Nat) (h : ∀ M w, E.call 0x400000 [] .long M w = some (M, w, 1)) (M : Mem) (w : Nat) :
    execFunc (implOf E true) 9 mainFn.scope mainName.val .nil .int mainBody [] (M, w) = some (.ret (some ⟨.long, 42⟩), M, w) := by
  have e1 : ∀ C : CSem.Ctx Nat, C.addr [111, 110, 101] = some 0x400000 → C.call = E.call →
      CSem.eval C (.bin .add .int (.call .int (.un .addr (.ptr (.func .nil .int)) (.ident (.func .nil .int) [111, 110, 101])) .nil) (.ilit .int ⟨.int, 41⟩)) (M, w) = some (42, M, w) := by
    intro C h1 h2
    have h3 : E.call 4194304#64 [] .long M w = some (M, w, 1) := h M w
    simp [CSem.eval, CSem.evalArgs, h1, h2, CSem.need, CSem.isPtr, CSem.rep, SExpr.dt, DType.isVoid, CSem.binary, CSem.arith]
    have h4 : CSem.fit (.long, false) (CSem.wrap (.long, false) ((1 : BitVec 64).toNat : Int) + 41) = some 42 := by decide +kernel
    rw [h3, Option.bind_some, Option.bind_some, if_pos (by decide), Option.bind_some, Option.bind_some]
    dsimp only
    rw [h4]
    rfl
  have e2 : withSelf (implOf E true) mainName.val (.func .nil .int) mainFn.scope = some ⟨[[([109, 97, 105, 110], E.glob mainName), ([111, 110, 101], 0x400000)]], [[]], 0⟩ := rfl
  rw [execFunc, e2, Option.bind_eq_bind, Option.bind_some, bindParams, Option.bind_eq_bind, Option.bind_some, mainBody, execs, scopeItem, scope, Option.bind_eq_bind, Option.bind_some, execItem]
  rw [CStm.exec]
  rw [e1 _ rfl rfl]
  rfl

/-- The function `main`, which calls `one`, meets the hypotheses: it returns 42. -/
example : ∃ u code out qs items, Compiled 99 oneSource u code out qs items ∧
    let P := progOf u out items 100 true
    let I := imageOf items
    Loaded P I u out items ∧ P.fns.all (proper out qs 9 P.each) = true ∧ P.stack 2 < 2 ^ 61 ∧ mainFn ∈ P.fns ∧ Free (fun _ => false) (P.stack 2) 0 ((entryMach 5).regs .sp) ∧
      I.locate (load (entryMach 5) ((entryMach 5).regs .sp) .quad) = none ∧ P.sym mainName = 0x400008 ∧
      (match hops I items (.at 8 (entryMach 5) 0) 20 with
      | some (.done a m _) => (a, get m .ax .long)
      | _ => (0, 0)) = (33, 42) ∧
      execFunc (implOf (P.env (P.call 1) mainFn (fun _ => false) ((entryMach 5).regs .sp - 8) []) P.lim) 9 mainFn.scope mainName.val .nil .int mainBody [] ((entryMach 5).mem, 7)
        = some (.ret (some ⟨.long, 42⟩), (entryMach 5).mem, 7) := by
  have key : (match compile 99 oneSource with
    | some (u, _, out, qs, items) => decide (items.length < 2 ^ 32) && decide (labelNames items).Nodup && decide (fnsOf (imageOf items).host.sym (sizeIn out) u noVars = some [oneFn, mainFn]) &&
      [oneFn, mainFn].all (proper out qs 9 100) && decide ((imageOf items).host.sym oneName = 0x400000) && decide ((imageOf items).host.sym mainName = 0x400008) &&
      decide ((imageOf items).locate (load (entryMach 5) ((entryMach 5).regs .sp) .quad) = none) &&
      decide ((match hops (imageOf items) items (.at 8 (entryMach 5) 0) 20 with
      | some (.done a m _) => (a, get m .ax .long)
      | _ => (0, 0)) = (33, 42))
    | none => false) = true := by decide +kernel
  split at key
  · rename_i u code out qs items hb
    simp only [Bool.and_eq_true, decide_eq_true_eq] at key
    obtain ⟨⟨⟨⟨⟨⟨⟨k1, k2⟩, k3⟩, k4⟩, k5⟩, k6⟩, k7⟩, k8⟩ := key
    have hf : (progOf u out items 100 true).fns = [oneFn, mainFn] := by simp only [progOf, k3, Option.getD_some]
    refine ⟨u, code, out, qs, items, compile_of hb, ?_⟩
    refine ⟨progOf_loaded k1 k2 (by rw [k3]; rfl), by rw [hf]; exact k4, by simp [Prog.stack, progOf], by rw [hf]; simp, free_nowhere (fun _ => rfl) _ _, k7, k6, k8, ?_⟩
    generalize hP : progOf u out items 100 true = P
    have hfn : P.fn 0x400000 = some oneFn := by
      rw [← hP, Prog.fn, hf, List.find?_cons_of_pos]
      exact decide_eq_true k5
    have hw : ∀ a, withFrame (fun _ => false) ((entryMach 5).regs .sp - 8) mainFn.size a = false := by
      intro a
      simp [withFrame, mainFn]
    have hl : P.lim = true := by rw [← hP]; rfl
    rw [hl]
    exact main_exec _ (fun M w => one_call hw hfn M w) _ _
  · cases key

theorem hops_none {I : Image W} {code : List Item} {a : BitVec 64} {x : Mach} {v : W} : ∀ d, hops I code (.done a x v) (d + 1) = none
  | 0 => rfl
  | d + 1 => by rw [hops, hops_none d]; rfl

theorem hops_done {I : Image W} {code : List Item} {c : Conf W} {s t : Nat} {a b : BitVec 64} {x y : Mach} {v w : W} (h1 : hops I code c s = some (.done a x v))
    (h2 : hops I code c t = some (.done b y w)) : x = y := by
  rcases Nat.lt_trichotomy s t with h | h | h
  · obtain ⟨d, rfl⟩ := Nat.exists_eq_add_of_lt h
    rw [Nat.add_assoc, hops_add, h1, Option.bind_some, hops_none] at h2
    cases h2
  · subst h
    rw [h1] at h2
    cases h2; rfl
  · obtain ⟨d, rfl⟩ := Nat.exists_eq_add_of_lt h
    rw [Nat.add_assoc, hops_add, h2, Option.bind_some, hops_none] at h1
    cases h1

/-- the function of C65 -/
def countSource : List UInt8 := X64.bytes "int f(int n){return n++<3;}"
def countFn : Fn := ⟨⟨[102], by decide⟩, countParams, .int, countSample, noVars, 16⟩

theorem call_none {P : Prog W} (h : P.ext = fun _ _ _ _ _ _ => none) : P.call 0 = fun _ _ _ _ _ _ => none := by
  funext ok t vs s M w
  simp only [Prog.call, h]
  split <;> rfl

theorem progOf_stack {u : List SExt} {out : List Immc} {items : List Item} {each : Nat} {lim : Bool} (n : Nat) : (progOf u out items each lim).stack n = n * each := by
  simp [Prog.stack, progOf]

/-- `f(5)` is 0 in C, the machine code returns 5 -/
theorem count_fails : ∃ u code out qs items, compile 99 countSource = some (u, code, out, qs, items) ∧ items.length < 2 ^ 32 ∧ (labelNames items).Nodup ∧
    fnsOf (imageOf items).host.sym (sizeIn out) u noVars = some [countFn] ∧ ∀ each, ¬ Entry (progOf u out items each false) (imageOf items) items 0 countFn := by
  have key : (match compile 99 countSource with
    | some (u, _, out, _, items) => decide (items.length < 2 ^ 32) && decide (labelNames items).Nodup && decide (fnsOf (imageOf items).host.sym (sizeIn out) u noVars = some [countFn]) &&
      decide ((imageOf items).host.sym countFn.name = 0x400000) && decide ((imageOf items).locate (load (entryMach 5) ((entryMach 5).regs .sp) .quad) = none) &&
      decide (((execFunc (implOf ⟨4096, (imageOf items).host.sym, fun _ _ _ _ _ => none, [⟨.long, 5⟩], withFrame (fun _ => false) 4096 16⟩ false) 9 noVars [102] countParams .int countSample [⟨.long, 5⟩]
        ((entryMach 5).mem, 0)).map (·.1)) = some (.ret (some ⟨.long, 0⟩))) &&
      (match hops (imageOf items) items (.at 0 (entryMach 5) 0) 18 with
      | some (.done _ m _) => decide (get m .ax .long = 5)
      | _ => false)
    | none => false) = true := by decide +kernel
  split at key
  · rename_i u code out qs items hb
    simp only [Bool.and_eq_true, decide_eq_true_eq] at key
    obtain ⟨⟨⟨⟨⟨⟨k1, k2⟩, k3⟩, k4⟩, k5⟩, k6⟩, k7⟩ := key
    refine ⟨u, code, out, qs, items, hb, k1, k2, k3, ?_⟩
    rintro each ⟨p, hp, h⟩
    have hp0 : p = 0 := by
      have h0 := imageOf_at k1 (Nat.zero_le items.length)
      change (imageOf items).locate ((imageOf items).host.sym countFn.name) = _ at hp
      rw [k4] at hp
      rw [show (4194304 : BitVec 64) = BitVec.ofNat 64 (0x400000 + 0) from rfl, h0] at hp
      exact (Option.some.inj hp).symm
    subst hp0
    obtain ⟨L, K, h⟩ := h (fun _ => false) [⟨.long, 5⟩] (entryMach 5) (free_nowhere (fun _ => rfl) _ _) (fun i v hv => by
      cases i with
      | zero => cases hv; decide
      | succ i => simp at hv) k5
    obtain ⟨⟨r, m', w'⟩, hx, hv⟩ := Option.map_eq_some_iff.1 k6
    dsimp only at hv
    subst hv
    obtain ⟨j, m, h1, -, -, -, h2⟩ := h 0 9 _ m' w' (by
      rw [Prog.env, call_none rfl]
      exact hx)
    have h3 := h2 _ rfl
    split at k7
    · rename_i m2 _ hd
      rw [hops_done hd h1, decide_eq_true_eq, h3] at k7
      revert k7
      decide
    · cases k7
  · cases key

/-- C68 does not hold for all programs. -/
theorem C68_violated : ¬ C68_full := by
  intro h
  obtain ⟨u, code, out, qs, items, hb, k1, k2, k3, k4⟩ := count_fails
  obtain ⟨each, he, h⟩ := h Nat 99 countSource u code out qs items (compile_of hb)
  have hf : (progOf u out items each false).fns = [countFn] := by simp only [progOf, k3, Option.getD_some]
  exact k4 each (h (progOf u out items each false) (imageOf items) rfl rfl (progOf_loaded k1 k2 (by rw [k3]; rfl)) 0 (by rw [progOf_stack]; omega) countFn (by rw [hf]; simp))

/-! ### faults of single stages seen in whole programs -/

/-- a two-dimensional array initialised with strings of five bytes -/
def stringsSource : List UInt8 := X64.bytes "int f(void){char a[2][5]={{\"abcd\"},{\"efgh\"}};return 0;}"

/-- the machine of the examples, with a frame pointer of the caller -/
def callerMach : Mach := { entryMach 5 with regs := fun r => if r = .bp then 0x1234 else (entryMach 5).regs r }

/-- C49: the second string is stored as eight bytes of which the last lies on the low byte of the saved frame pointer: the caller gets back 0x1200 for 0x1234. -/
theorem C49_saved_register_violated : ∃ u code out qs items, Compiled 99 stringsSource u code out qs items ∧ ∃ j m, hops (imageOf items) items (.at 0 callerMach 0) j = some (.done 33 m 0) ∧
    callerMach.regs .bp = 0x1234 ∧ m.regs .bp = 0x1200 := by
  have key : (match compile 99 stringsSource with
    | some (_, _, _, _, items) => (match hops (imageOf items) items (.at 0 callerMach 0) 14 with
      | some (.done a m w) => decide (a = 33) && decide (w = 0) && decide (m.regs .bp = 0x1200)
      | _ => false)
    | none => false) = true := by decide +kernel
  split at key
  · rename_i u code out qs items hb
    split at key
    · rename_i a m w hm
      simp only [Bool.and_eq_true, decide_eq_true_eq] at key
      obtain ⟨⟨rfl, rfl⟩, k⟩ := key
      exact ⟨u, code, out, qs, items, compile_of hb, _, m, hm, by decide, k⟩
    · cases key
  · cases key

/-- the stages before register allocation accept a source text -/
def Generates (fuel : Nat) (src : List UInt8) (code : List Immc) : Prop :=
  ∃ toks a u, Lexer.tokenize src = .ok toks ∧ Main.ofParser (Parser.parse fuel (.unit []) (Parser.start toks)) = .ok a ∧ Res.resolve fuel a = .ok (some u) ∧ Gen.generate u = .ok code

/-- the code of a text that the stages before register allocation accept -/
def generates (fuel : Nat) (src : List UInt8) : Option (List Immc) :=
  match Lexer.tokenize src with
  | .ok toks => match Main.ofParser (Parser.parse fuel (.unit []) (Parser.start toks)) with
    | .ok a => match Res.resolve fuel a with
      | .ok (some u) => match Gen.generate u with
        | .ok code => some code
        | _ => none
      | _ => none
    | _ => none
  | _ => none

theorem generates_of {fuel : Nat} {src : List UInt8} {code : List Immc} (h : generates fuel src = some code) : Generates fuel src code := by
  unfold generates at h
  split at h
  · rename_i toks h1
    split at h
    · rename_i a h2
      split at h
      · rename_i u h3
        split at h
        · rename_i c h4
          cases h
          exact ⟨toks, a, u, h1, h2, h3, h4⟩
        · cases h
      · cases h
    · cases h
  · cases h

/-- an expression for which nine registers are needed: every operator has its right operand evaluated while its left one is kept -/
def nineSource : List UInt8 := X64.bytes "int f(int a){return a|a^a&a==a<a+a*(a+a);}"

/-- a pointer chosen by a condition and then followed -/
def chosenSource : List UInt8 := X64.bytes "int main(void){int c;int*p;int*q;return *(c?p:q);}"

/-- C39: a valid function of one line for which the compiler with its eight registers reads through a null pointer; nine registers are enough. -/
theorem C39_source_violated : ∃ code, Generates 200 nineSource code ∧ Regalloc.run code 8 99 = .ub ∧ ∃ r, Regalloc.run code 9 99 = .ok r := by
  have key : (match generates 200 nineSource with
    | some code => (match Regalloc.run code 8 99 with | .ub => true | _ => false) && (match Regalloc.run code 9 99 with | .ok _ => true | _ => false)
    | none => false) = true := by decide +kernel
  split at key
  · rename_i code hb
    rw [Bool.and_eq_true] at key
    refine ⟨code, generates_of hb, ?_, ?_⟩
    · have := key.1
      split at this
      · assumption
      · cases this
    · have := key.2
      split at this
      · rename_i r h
        exact ⟨r, h⟩
      · cases this
  · cases key

/-- C33, C39: the register that is to hold the chosen pointer is never written, so that the allocation has none for it: the compiler reads through a null pointer, however many registers there were (here: 20). -/
theorem C39_chosen_pointer_violated : ∃ code, Generates 200 chosenSource code ∧ Regalloc.run code 8 99 = .ub ∧ Regalloc.run code 20 99 = .ub := by
  have key : (match generates 200 chosenSource with
    | some code => (match Regalloc.run code 8 99 with | .ub => true | _ => false) && (match Regalloc.run code 20 99 with | .ub => true | _ => false)
    | none => false) = true := by decide +kernel
  split at key
  · rename_i code hb
    rw [Bool.and_eq_true] at key
    refine ⟨code, generates_of hb, ?_, ?_⟩
    · have := key.1
      split at this
      · assumption
      · cases this
    · have := key.2
      split at this
      · assumption
      · cases this
  · cases key

end X86
end Umlcc
