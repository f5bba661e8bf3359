import Verif.Lemma.CSem
import Verif.Lemma.SimMach
/-!
Single instructions of the machine, by their operands' values.
-/
namespace Umlcc
namespace Sim
open IMach (Val St Env exec width isUns src place fetch wider result)
open RSpec (Mach UniqueLabels eraseOpe branches)
open CSem (InRange rep)
open Gen (inst)

/-- an operand has a value -/
def Holds (R : Int → Val) (o : Ope) (q : Sfx × Bool) (v : Int) : Prop :=
  (∃ r, o = .reg q.1 r q.2 ∧ R r = ⟨q.1, BitVec.ofInt _ v⟩) ∨
  (∃ l : ILit, o = .int q.1 l ∧ l.type.isUnsigned = q.2 ∧ BitVec.ofInt q.1.bits l.value = BitVec.ofInt q.1.bits v)

/-- an operand denotes the place with an address -/
def Place (E : Env W) (R : Int → Val) (o : Ope) (a : BitVec 64) : Prop :=
  (∃ r, o = .ptr r ∧ R r = ⟨.quad, a⟩) ∨ (∃ k, o = .mem k ∧ a = E.bp - BitVec.ofInt 64 k) ∨ (∃ n, o = .label n ∧ a = E.glob n)

variable {W : Type} {E : Env W} {code : List Immc} {p : Nat} {R : Int → Val} {st : St W}

theorem Holds.reg {r : Int} {q : Sfx × Bool} {v : Int} (h : R r = ⟨q.1, BitVec.ofInt _ v⟩) : Holds R (.reg q.1 r q.2) q v := .inl ⟨r, rfl, h⟩
theorem Holds.lit {s : Sfx} {v : Int} : Holds R (Gen.intOpe s v) (s, false) v := .inr ⟨⟨.int, v⟩, rfl, rfl, rfl⟩

theorem Holds.width {o : Ope} {q : Sfx × Bool} {v : Int} (h : Holds R o q v) : width (eraseOpe (some o)) = q.1 := by
  rcases h with ⟨r, rfl, _⟩ | ⟨l, rfl, _⟩ <;> rfl

theorem Holds.uns {o : Ope} {q : Sfx × Bool} {v : Int} (h : Holds R o q v) : isUns (eraseOpe (some o)) = q.2 := by
  rcases h with ⟨r, rfl, _⟩ | ⟨l, rfl, h, _⟩
  · rfl
  · exact h

theorem Holds.src {o : Ope} {q : Sfx × Bool} {v : Int} (h : Holds R o q v) (hq : q.1 ≠ .none) :
    src (eraseOpe (some o)) (rv R (some o)) q.1 = some (BitVec.ofInt _ v) := by
  rcases h with ⟨r, rfl, h⟩ | ⟨l, rfl, _, h⟩
  · simp only [eraseOpe, rv, IMach.src, h, hq, ne_eq, not_false_eq_true, and_self, if_true, conv_self]
  · simp only [eraseOpe, rv, IMach.src, hq, ne_eq, not_false_eq_true, if_true, h]

/-- a register at any width -/
theorem src_reg {r : Int} {q : Sfx × Bool} {v : Int} (hq : q.1 ≠ .none) (hv : InRange q v) (h : R r = ⟨q.1, BitVec.ofInt _ v⟩) (w : Sfx) :
    src (eraseOpe (some (.reg q.1 r q.2))) (rv R (some (.reg q.1 r q.2))) w = some (BitVec.ofInt _ v) := by
  simp only [eraseOpe, rv, IMach.src, h, hq, ne_eq, not_false_eq_true, and_self, if_true]
  rw [conv_ofInt hv hq]

theorem Place.place {o : Ope} {a : BitVec 64} (h : Place E R o a) : place E (eraseOpe (some o)) (rv R (some o)) = some a := by
  rcases h with ⟨r, rfl, h⟩ | ⟨k, rfl, h⟩ | ⟨n, rfl, h⟩
  · simp only [eraseOpe, rv, IMach.place, h, IMach.asPtr]
  · subst h; rfl
  · subst h; rfl

theorem Place.dst {o : Ope} {a : BitVec 64} (h : Place E R o a) : IMach.place E (eraseOpe (some o)) (pv R (some o)) = some a := by
  rcases h with ⟨r, rfl, h⟩ | ⟨k, rfl, h⟩ | ⟨n, rfl, h⟩
  · simp only [eraseOpe, pv, IMach.place, h, IMach.asPtr]
  · subst h; rfl
  · subst h; rfl

theorem Place.not_reg {o : Ope} {a : BitVec 64} (h : Place E R o a) (s : Sfx) (r : Int) (u : Bool) : some o ≠ some (.reg s r u) := by
  rcases h with ⟨r, rfl, h⟩ | ⟨k, rfl, h⟩ | ⟨n, rfl, h⟩ <;> simp

/-! ### instructions -/

theorem wider_self (s : Sfx) : wider s s = s := by simp [wider]

theorem load_steps {ds : Sfx} {r : Int} {u : Bool} {o : Ope} {b : BitVec ds.bits} (hd : ds ≠ .none)
    (hc : code[p]? = some (inst .load (some (.reg ds r u)) (some o) none))
    (hf : fetch E st.mem (eraseOpe (some o)) (rv R (some o)) ds = some b) :
    Steps E code ⟨p, R, st⟩ ⟨p + 1, upd R r ⟨ds, b⟩, st⟩ :=
  step_reg (b := false) hc (by decide) (by simp only [exec, hd, if_false, hf, Option.map_some, result])

/-- loading from a place -/
theorem load_place {q : Sfx × Bool} (hq : q.1 ≠ .none) {r : Int} {u : Bool} {o : Ope} {a : Int} (h : Place E R o (BitVec.ofInt 64 a))
    (hm : IMach.may E (some o) (BitVec.ofInt 64 a) q.1.nbytes = true)
    (hc : code[p]? = some (inst .load (some (.reg q.1 r u)) (some o) none)) :
    Steps E code ⟨p, R, st⟩ ⟨p + 1, upd R r ⟨q.1, BitVec.ofInt _ (CSem.load q st.mem a)⟩, st⟩ := by
  refine load_steps hq hc ?_
  simp only [fetch, h.place, may_erase, hm, if_true, read_load q]

/-- loading a value of the same width -/
theorem load_same {q : Sfx × Bool} (hq : q.1 ≠ .none) {r : Int} {u : Bool} {o : Ope} {v : Int} {u' : Bool} (h : Holds R o (q.1, u') v)
    (hc : code[p]? = some (inst .load (some (.reg q.1 r u)) (some o) none)) :
    Steps E code ⟨p, R, st⟩ ⟨p + 1, upd R r ⟨q.1, BitVec.ofInt _ v⟩, st⟩ := by
  refine load_steps hq hc ?_
  have : place E (eraseOpe (some o)) (rv R (some o)) = none := by
    rcases h with ⟨r, rfl, _⟩ | ⟨l, rfl, _⟩ <;> rfl
  simp only [fetch, this, h.src hq]

/-- loading a register with a conversion -/
theorem load_conv {q q' : Sfx × Bool} (hq : q.1 ≠ .none) (hq' : q'.1 ≠ .none) {r i : Int} {u : Bool} {v : Int} (hv : InRange q' v)
    (h : R i = ⟨q'.1, BitVec.ofInt _ v⟩) (hc : code[p]? = some (inst .load (some (.reg q.1 r u)) (some (.reg q'.1 i q'.2)) none)) :
    Steps E code ⟨p, R, st⟩ ⟨p + 1, upd R r ⟨q.1, BitVec.ofInt _ v⟩, st⟩ := by
  refine load_steps hq hc ?_
  have : place E (eraseOpe (some (.reg q'.1 i q'.2))) (rv R (some (.reg q'.1 i q'.2))) = none := rfl
  simp only [fetch, this]
  exact src_reg hq' hv h _

theorem addr_steps {r : Int} {u : Bool} {o : Ope} {a : BitVec 64} (h : Place E R o a)
    (hc : code[p]? = some (inst .addr (some (.reg .quad r u)) (some o) none)) :
    Steps E code ⟨p, R, st⟩ ⟨p + 1, upd R r ⟨.quad, a⟩, st⟩ :=
  step_reg (b := false) hc (by decide) (by simp only [exec, h.place, Option.map_some, result])

theorem store_steps {q : Sfx × Bool} (hq : q.1 ≠ .none) {d o : Ope} {a v : Int} (hd : Place E R d (BitVec.ofInt 64 a)) (ho : Holds R o q v)
    (hm : IMach.may E (some d) (BitVec.ofInt 64 a) q.1.nbytes = true) (hc : code[p]? = some (inst .store (some d) (some o) none)) :
    Steps E code ⟨p, R, st⟩ ⟨p + 1, R, { st with mem := CSem.store q st.mem a v }⟩ := by
  refine step_eff (v := IMach.noVal) (b := false) hc hd.not_reg rfl ?_
  have hs := ho.src hq
  have hw := ho.width
  rw [← write_store]
  clear ho
  generalize BitVec.ofInt q.1.bits v = b at hs ⊢
  revert b
  rw [← hw] at hm ⊢
  intro b hs
  simp only [exec, hd.dst, hs, may_erase, hm, if_true]

theorem starg_steps {q : Sfx × Bool} (hq : q.1 ≠ .none) {o : Ope} {v : Int} {sf : Sfx} {i : Nat} {u : Bool} (ho : Holds R o q v)
    {xs : List (Nat × Val)} {rest : List (List (Nat × Val))} (hx : st.out = xs :: rest)
    (hc : code[p]? = some (inst .starg (some (.arg sf i u)) (some o) none)) :
    Steps E code ⟨p, R, st⟩ ⟨p + 1, R, { st with out := ((i, ⟨q.1, BitVec.ofInt _ v⟩) :: xs) :: rest }⟩ := by
  refine step_eff (v := IMach.noVal) (b := false) hc nofun rfl ?_
  have hs := ho.src hq
  have hw := ho.width
  clear ho
  generalize BitVec.ofInt q.1.bits v = b at hs ⊢
  revert b
  rw [← hw]
  intro b hs
  have h0 : (0 : Int) ≤ (i : Int) := by omega
  simp only [exec, hs, hx]
  simp only [eraseOpe, h0, if_true, Int.toNat_natCast, result]

theorem stret_steps {q : Sfx × Bool} (hq : q.1 ≠ .none) {o : Ope} {v : Int} {d so : Option Ope} (hd : ∀ s r u, d ≠ some (.reg s r u)) (ho : Holds R o q v)
    (hc : code[p]? = some (inst .stret d (some o) so)) :
    Steps E code ⟨p, R, st⟩ ⟨p + 1, R, { st with ret := some ⟨q.1, BitVec.ofInt _ v⟩ }⟩ := by
  refine step_eff (v := IMach.noVal) (b := false) hc hd rfl ?_
  have hs := ho.src hq
  have hw := ho.width
  clear ho
  generalize BitVec.ofInt q.1.bits v = b at hs ⊢
  revert b
  rw [← hw]
  intro b hs
  simp only [exec, hs, Option.map_some, result]

/-- is one of the two-operand instructions -/
def isArith : IOp → Bool
  | .add | .sub | .mul | .div | .mod | .and | .or | .xor | .sal | .sar => true
  | _ => false

theorem exec_arith {op : IOp} (ho : isArith op = true) {ds : Sfx} (hd : ds ≠ .none) {du : Bool} {fo so : Option Ope} {f s pp : Option Val} {w : Sfx}
    (hw : wider (width fo) (width so) = w) {a b v : BitVec w.bits} (ha : src fo f w = some a) (hb : src so s w = some b)
    (hv : IMach.arith op du (isUns fo) a b = some v) :
    exec E op (some (.reg ds 0 du)) fo so f s pp st = some (st, ⟨ds, ISem.conv du v ds.bits⟩, false) := by
  subst hw
  cases op <;> first | exact absurd ho (by decide) | simp only [exec, hd, if_false, ha, hb, hv, Option.map_some, result]

theorem arith_steps {op : IOp} (ho : isArith op = true) {ds : Sfx} (hd : ds ≠ .none) {r : Int} {du : Bool} {fo so : Ope} {w : Sfx}
    (hw : wider (width (eraseOpe (some fo))) (width (eraseOpe (some so))) = w) {a b v : BitVec w.bits}
    (ha : src (eraseOpe (some fo)) (rv R (some fo)) w = some a) (hb : src (eraseOpe (some so)) (rv R (some so)) w = some b)
    (hv : IMach.arith op du (isUns (eraseOpe (some fo))) a b = some v)
    (hc : code[p]? = some (inst op (some (.reg ds r du)) (some fo) (some so))) :
    Steps E code ⟨p, R, st⟩ ⟨p + 1, upd R r ⟨ds, ISem.conv du v ds.bits⟩, st⟩ :=
  step_reg (b := false) hc (by rintro rfl; cases ho) (exec_arith ho hd hw ha hb hv)

/-- operands and destination of the same type -/
theorem arith_same {op : IOp} (ho : isArith op = true) {q : Sfx × Bool} (hq : q.1 ≠ .none) {r : Int} {fo so : Ope} {a b v : Int} {u : Bool}
    (ha : Holds R fo q a) (hb : Holds R so (q.1, u) b)
    (hv : IMach.arith op q.2 q.2 (BitVec.ofInt q.1.bits a) (BitVec.ofInt q.1.bits b) = some (BitVec.ofInt q.1.bits v))
    (hc : code[p]? = some (inst op (some (.reg q.1 r q.2)) (some fo) (some so))) :
    Steps E code ⟨p, R, st⟩ ⟨p + 1, upd R r ⟨q.1, BitVec.ofInt _ v⟩, st⟩ := by
  have := arith_steps (E := E) (st := st) (v := BitVec.ofInt q.1.bits v) ho hq (by rw [ha.width, hb.width, wider_self]) (ha.src hq) (hb.src hq)
    (by rw [ha.uns]; exact hv) hc
  rwa [conv_self] at this

theorem un_steps {op : IOp} (ho : op = .neg ∨ op = .not) {q : Sfx × Bool} (hq : q.1 ≠ .none) {r : Int} {fo : Ope} {a v : Int}
    (ha : Holds R fo q a) (hv : ISem.un op (BitVec.ofInt q.1.bits a) = some (BitVec.ofInt q.1.bits v))
    (hc : code[p]? = some (inst op (some (.reg q.1 r q.2)) (some fo) none)) :
    Steps E code ⟨p, R, st⟩ ⟨p + 1, upd R r ⟨q.1, BitVec.ofInt _ v⟩, st⟩ := by
  refine step_reg (b := false) hc (by rcases ho with rfl | rfl <;> decide) ?_
  have key : ∀ {fo : Option Ope} {f : Option Val} {s pp : Option Val} {so : Option Ope} {w : Sfx} (_ : width fo = w) {x y : BitVec w.bits} (_ : src fo f w = some x)
      (_ : ISem.un op x = some y), exec E op (some (.reg q.1 0 q.2)) fo so f s pp st = some (st, ⟨q.1, ISem.conv (isUns fo) y q.1.bits⟩, false) := by
    intro fo f s pp so w hw x y hx hy
    subst hw
    rcases ho with rfl | rfl <;> simp only [exec, hq, if_false, hx, hy, Option.map_some, result]
  rw [key ha.width (ha.src hq) hv, conv_self]

/-- is one of the comparisons with a result -/
def isSet : IOp → Bool
  | .seteq | .setneq | .setlt | .setgt | .setleq | .setgeq => true
  | _ => false

theorem ofBool_bits (n : Nat) (v : Bool) : (if v then 1 else 0 : BitVec n) = BitVec.ofInt n (CSem.ofBool v) := by
  cases v <;> simp [CSem.ofBool]

theorem set_steps {op : IOp} (ho : isSet op = true) {ds : Sfx} (hd : ds ≠ .none) {du : Bool} {q : Sfx × Bool} (hq : q.1 ≠ .none) {r : Int} {fo so : Ope}
    {a b : Int} {v : Bool} {u : Bool} (ha : Holds R fo q a) (hb : Holds R so (q.1, u) b)
    (hv : ISem.rel op q.2 (BitVec.ofInt q.1.bits a) (BitVec.ofInt q.1.bits b) = some v)
    (hc : code[p]? = some (inst op (some (.reg ds r du)) (some fo) (some so))) :
    Steps E code ⟨p, R, st⟩ ⟨p + 1, upd R r ⟨ds, BitVec.ofInt _ (CSem.ofBool v)⟩, st⟩ := by
  refine step_reg (b := false) hc (by rintro rfl; cases ho) ?_
  have key : ∀ {fo so : Option Ope} {f s pp : Option Val} {w : Sfx} (_ : wider (width fo) (width so) = w) {x y : BitVec w.bits} (_ : src fo f w = some x)
      (_ : src so s w = some y) (_ : ISem.rel op (isUns fo) x y = some v),
      exec E op (some (.reg ds 0 du)) fo so f s pp st = some (st, ⟨ds, if v then 1 else 0⟩, false) := by
    intro fo so f s pp w hw x y hx hy hv
    subst hw
    cases op <;> first | exact absurd ho (by decide) | simp only [exec, hd, if_false, hx, hy, hv, Option.map_some, result]
  rw [key (by rw [ha.width, hb.width, wider_self]) (ha.src hq) (hb.src hq) (by rw [ha.uns]; exact hv), ofBool_bits]

/-- is one of the conditional branches -/
def isCond : IOp → Bool
  | .jeq | .jneq | .jgt | .jgeq | .jlt | .jleq => true
  | _ => false

theorem cond_steps (hu : UniqueLabels code) {op : IOp} (ho : isCond op = true) {q : Sfx × Bool} (hq : q.1 ≠ .none) {n : Name} {fo so : Ope} {a b : Int} {v u : Bool}
    (ha : Holds R fo q a) (hb : Holds R so (q.1, u) b)
    (hv : ISem.rel op q.2 (BitVec.ofInt q.1.bits a) (BitVec.ofInt q.1.bits b) = some v) {k : Nat} {lt : LblType} {vis : Vis}
    (hc : code[p]? = some (inst op (some (.label n)) (some fo) (some so))) (hk : code[k]? = some (.label lt vis n)) :
    Steps E code ⟨p, R, st⟩ ⟨if v then k else p + 1, R, st⟩ := by
  have key : ∀ {fo so : Option Ope} {f s pp : Option Val} {w : Sfx} (_ : wider (width fo) (width so) = w) {x y : BitVec w.bits} (_ : src fo f w = some x)
      (_ : src so s w = some y) (_ : ISem.rel op (isUns fo) x y = some v),
      exec E op (some (.label n)) fo so f s pp st = some (st, IMach.noVal, v) := by
    intro fo so f s pp w hw x y hx hy hv
    subst hw
    cases op <;> first | exact absurd ho (by decide) | simp only [exec, hx, hy, hv, Option.map_some]
  have he := key (f := rv R (some fo)) (s := rv R (some so)) (pp := none) (by rw [ha.width, hb.width, wider_self]) (ha.src hq) (hb.src hq)
    (by rw [ha.uns]; exact hv)
  have hbr : branches op = true := by cases op <;> first | rfl | cases ho
  cases v with
  | true => exact step_taken hu hbr hc hk he
  | false => exact step_not_taken hbr (by rintro rfl; cases ho) hc he

end Sim
end Umlcc
