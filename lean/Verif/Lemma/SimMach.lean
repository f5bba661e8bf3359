import Verif.Spec.ImmcSem
/-!
Running the machine of intermediate code step by step.
-/
namespace Umlcc
namespace Sim
open IMach (Val St Env exec sem width isUns src place fetch)
open RSpec (Mach step run labelPos UniqueLabels branches target writes reads eraseOpe eraseInst isLabelNamed)

theorem width_erase (o : Option Ope) : width (eraseOpe o) = width o := by
  rcases o with _ | o
  · rfl
  · cases o <;> rfl
theorem isUns_erase (o : Option Ope) : isUns (eraseOpe o) = isUns o := by
  rcases o with _ | o
  · rfl
  · cases o <;> rfl
theorem src_erase (o : Option Ope) (v : Option Val) (w : Sfx) : src (eraseOpe o) v w = src o v w := by
  rcases o with _ | o
  · rfl
  · cases o <;> cases v <;> rfl
theorem place_erase {W : Type} (env : Env W) (o : Option Ope) (v : Option Val) : place env (eraseOpe o) v = place env o v := by
  rcases o with _ | o
  · rfl
  · cases o <;> cases v <;> rfl
theorem may_erase {W : Type} (env : Env W) (o : Option Ope) (a : BitVec 64) (n : Nat) : IMach.may env (eraseOpe o) a n = IMach.may env o a n := by
  rcases o with _ | o
  · rfl
  · cases o <;> rfl
theorem fetch_erase {W : Type} (env : Env W) (m : IMach.Mem) (o : Option Ope) (v : Option Val) (w : Sfx) :
    fetch env m (eraseOpe o) v w = fetch env m o v w := by
  unfold fetch; simp only [place_erase, src_erase, may_erase]
theorem litNat_erase (o : Option Ope) : IMach.litNat (eraseOpe o) = IMach.litNat o := by
  rcases o with _ | o
  · rfl
  · cases o <;> rfl

/-- content of an operand's register -/
def rv (R : Int → Val) : Option Ope → Option Val
  | some (.reg _ r _) => some (R r)
  | some (.ptr r) => some (R r)
  | _ => none

/-- content of the register a destination points through -/
def pv (R : Int → Val) : Option Ope → Option Val
  | some (.ptr r) => some (R r)
  | _ => none

theorem sem_inst {W : Type} (env : Env W) (i : Inst) (R : Int → Val) (st : St W) :
    sem env (eraseInst i) ((reads (.inst i)).map R) st =
      exec env i.op (eraseOpe i.dst) (eraseOpe i.fst) (eraseOpe i.snd) (rv R i.fst) (rv R i.snd) (pv R i.dst) st := by
  obtain ⟨op, d, f, s⟩ := i
  simp only [sem, eraseInst, reads]
  have hc : ∀ (o : Option Ope) (vs : List Val), IMach.cut (eraseOpe o) ((RSpec.opeRegs o).map R ++ vs) = (rv R o, vs) := by
    intro o vs
    rcases o with _ | o
    · cases vs <;> rfl
    · cases o <;> cases vs <;> rfl
  simp only [List.map_append, List.append_assoc, hc]
  rcases d with _ | d
  · rfl
  · cases d <;> rfl

/-- writing a register -/
def upd (R : Int → Val) (r : Int) (v : Val) : Int → Val := fun q => if q = r then v else R q

@[simp] theorem upd_same (R : Int → Val) (r : Int) (v : Val) : upd R r v r = v := by simp [upd]
theorem upd_other {R : Int → Val} {r q : Int} {v : Val} (h : q ≠ r) : upd R r v q = R q := by simp [upd, h]

/-- the machine gets from one state to another -/
def Steps {W : Type} (env : Env W) (code : List Immc) (m m' : Mach Val (St W)) : Prop := ∃ n, run (sem env) code m n = some m'

theorem run_add {W : Type} (env : Env W) (code : List Immc) (m : Mach Val (St W)) (a b : Nat) :
    run (sem env) code m (a + b) = (run (sem env) code m a).bind fun m => run (sem env) code m b := by
  induction b with
  | zero => cases h : run (sem env) code m a <;> simp [h, run]
  | succ b ih =>
    rw [← Nat.add_assoc, run, ih]
    cases h : run (sem env) code m a <;> simp [run]

theorem Steps.refl {W : Type} {env : Env W} {code : List Immc} (m : Mach Val (St W)) : Steps env code m m := ⟨0, rfl⟩

theorem Steps.trans {W : Type} {env : Env W} {code : List Immc} {a b c : Mach Val (St W)} (h : Steps env code a b) (k : Steps env code b c) :
    Steps env code a c := by
  obtain ⟨n, h⟩ := h
  obtain ⟨m, k⟩ := k
  exact ⟨n + m, by rw [run_add, h]; exact k⟩

theorem Steps.one {W : Type} {env : Env W} {code : List Immc} {a b : Mach Val (St W)} (h : step (sem env) code a = some b) :
    Steps env code a b := ⟨1, by simp [run, h]⟩

/-- the code contains a piece at a position -/
def At (code : List Immc) : Nat → List Immc → Prop
  | _, [] => True
  | p, x :: xs => code[p]? = some x ∧ At code (p + 1) xs

theorem at_append {code : List Immc} {p : Nat} {a b : List Immc} : At code p (a ++ b) ↔ At code p a ∧ At code (p + a.length) b := by
  induction a generalizing p with
  | nil => simp [At]
  | cons x a ih => simp only [List.cons_append, At, ih, List.length_cons, and_assoc, Nat.add_assoc, Nat.add_comm 1]

theorem at_mid (pre c post : List Immc) : At (pre ++ c ++ post) pre.length c := by
  induction c generalizing pre with
  | nil => trivial
  | cons x c ih =>
    refine ⟨by simp, ?_⟩
    have := ih (pre ++ [x])
    simpa using this

theorem at_self (c : List Immc) : At c 0 c := by simpa using at_mid [] c []

variable {W : Type} {env : Env W} {code : List Immc}

/-- an instruction with a register as destination -/
theorem step_reg {p : Nat} {R : Int → Val} {st st' : St W} {op : IOp} {s : Sfx} {r : Int} {u : Bool} {fo so : Option Ope} {v : Val} {b : Bool}
    (hc : code[p]? = some (.inst ⟨op, some (.reg s r u), fo, so⟩)) (ho : op ≠ .jmp)
    (he : exec env op (some (.reg s 0 u)) (eraseOpe fo) (eraseOpe so) (rv R fo) (rv R so) none st = some (st', v, b)) :
    Steps env code ⟨p, R, st⟩ ⟨p + 1, upd R r v, st'⟩ := by
  refine .one ?_
  have h := sem_inst env ⟨op, some (.reg s r u), fo, so⟩ R st
  simp only [pv, eraseOpe] at h he
  rw [he] at h
  simp only [step, hc, h]
  simp [writes, target, ho]
  rfl

/-- an instruction without a register as destination that is not a jump -/
theorem step_eff {p : Nat} {R : Int → Val} {st st' : St W} {op : IOp} {d fo so : Option Ope} {v : Val} {b : Bool}
    (hc : code[p]? = some (.inst ⟨op, d, fo, so⟩)) (hd : ∀ s r u, d ≠ some (.reg s r u)) (ho : branches op = false)
    (he : exec env op (eraseOpe d) (eraseOpe fo) (eraseOpe so) (rv R fo) (rv R so) (pv R d) st = some (st', v, b)) :
    Steps env code ⟨p, R, st⟩ ⟨p + 1, R, st'⟩ := by
  refine .one ?_
  have h := sem_inst env ⟨op, d, fo, so⟩ R st
  simp only [he] at h
  have hw : writes (.inst ⟨op, d, fo, so⟩) = none := by
    rcases d with _ | d
    · rfl
    · cases d <;> first | rfl | exact absurd rfl (hd _ _ _)
  have ht : target (.inst ⟨op, d, fo, so⟩) = none := by
    rcases d with _ | d
    · rfl
    · cases d <;> first | rfl | simp [target, ho]
  have hj : op ≠ .jmp := by rintro rfl; exact absurd ho (by decide)
  simp only [step, hc, h, hw, ht, if_neg hj]

theorem step_label {p : Nat} {R : Int → Val} {st : St W} {t : LblType} {v : Vis} {n : Name} (hc : code[p]? = some (.label t v n)) :
    Steps env code ⟨p, R, st⟩ ⟨p + 1, R, st⟩ := by
  refine .one ?_
  simp only [step, hc]

theorem labelPos_of (hu : UniqueLabels code) {q : Nat} {t : LblType} {v : Vis} {n : Name} (hq : code[q]? = some (.label t v n)) :
    labelPos code n = some q := by
  unfold labelPos
  cases h : code.findIdx? (isLabelNamed n) with
  | none =>
    rw [List.findIdx?_eq_none_iff] at h
    have hm : (Immc.label t v n) ∈ code := List.mem_of_getElem? hq
    have := h _ hm
    simp [isLabelNamed] at this
  | some k =>
    rw [List.findIdx?_eq_some_iff_getElem] at h
    obtain ⟨hk, h1, -⟩ := h
    have := hu k q n _ _ (List.getElem?_eq_getElem hk) hq h1 (by simp [isLabelNamed])
    rw [this]

theorem step_jmp (hu : UniqueLabels code) {p q : Nat} {R : Int → Val} {st : St W} {n : Name} {t : LblType} {v : Vis}
    (hc : code[p]? = some (.inst ⟨.jmp, some (.label n), none, none⟩)) (hq : code[q]? = some (.label t v n)) :
    Steps env code ⟨p, R, st⟩ ⟨q, R, st⟩ := by
  refine .one ?_
  have h := sem_inst env ⟨.jmp, some (.label n), none, none⟩ R st
  simp only [exec] at h
  simp only [step, hc, h, target, branches, if_true, labelPos_of hu hq]
  simp [writes]

theorem step_taken (hu : UniqueLabels code) {p q : Nat} {R : Int → Val} {st st' : St W} {op : IOp} {n : Name} {t : LblType} {v : Vis} {fo so : Option Ope}
    {w : Val} (hb : branches op = true) (hc : code[p]? = some (.inst ⟨op, some (.label n), fo, so⟩)) (hq : code[q]? = some (.label t v n))
    (he : exec env op (some (.label n)) (eraseOpe fo) (eraseOpe so) (rv R fo) (rv R so) none st = some (st', w, true)) :
    Steps env code ⟨p, R, st⟩ ⟨q, R, st'⟩ := by
  refine .one ?_
  have h := sem_inst env ⟨op, some (.label n), fo, so⟩ R st
  simp only [pv, eraseOpe] at h he
  rw [he] at h
  simp only [step, hc, h, target, hb, if_true, labelPos_of hu hq]
  simp [writes]

theorem step_not_taken {p : Nat} {R : Int → Val} {st st' : St W} {op : IOp} {n : Name} {fo so : Option Ope} {w : Val} (hb : branches op = true)
    (hj : op ≠ .jmp) (hc : code[p]? = some (.inst ⟨op, some (.label n), fo, so⟩))
    (he : exec env op (some (.label n)) (eraseOpe fo) (eraseOpe so) (rv R fo) (rv R so) none st = some (st', w, false)) :
    Steps env code ⟨p, R, st⟩ ⟨p + 1, R, st'⟩ := by
  refine .one ?_
  have h := sem_inst env ⟨op, some (.label n), fo, so⟩ R st
  simp only [pv, eraseOpe] at h he
  rw [he] at h
  simp only [step, hc, h, target, hb, if_true]
  simp [writes, hj]

end Sim
end Umlcc
