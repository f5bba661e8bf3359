import Verif.Spec.X64Inst
import Verif.Lemma.X64Str
import Verif.Lemma.X64Div
/-!
Bridges between the statements about single instructions (`Verif.Spec.X64Inst`) and the lemmas, and small machine states
for examples.
-/
namespace Umlcc
namespace X86
open X64 ISem

/-- a state to run examples in: `rcx` holds -1 (64 bits), `rdx` 5, `rsi` 3, `rsp` and `rbp` are 0x1000 -/
def mEx : Mach where
  regs := fun r => match r with
    | .cx => -1
    | .dx => 5
    | .si => 3
    | .sp => 0x1000
    | .bp => 0x1000
    | _ => 0
  mem := fun _ => 0
  flags := none

def envEx : Env := ⟨fun _ => 0, fun _ m => some { m with regs := fun r => if r = .sp then m.regs .sp + 8 else if r = .ax then 7 else m.regs r }, 0⟩

/-- the code did not run through -/
def isBad : Res → Bool
  | .bad => true
  | _ => false

/-- a register after the code ran through -/
def resReg (r : Reg) : Res → Option (BitVec 64)
  | .next m => some (m.regs r)
  | _ => none

theorem snd_of_opVal {m : Mach} {w : Sfx} {o : Ope} {b : BitVec w.bits} (h : opVal m w o = some b) (hl : LitFits w o) : Snd m w o b := by
  cases o with
  | reg s id u =>
    simp only [opVal] at h
    split at h
    · rename_i r hr
      split at h
      · cases h
      · rename_i hs; cases h; exact .reg hr hs
    · cases h
  | int s l => cases h; exact .int hl
  | _ => cases h

theorem sndD_of_opVal {m : Mach} {w : Sfx} {o : Ope} {b : BitVec w.bits} (h : opVal m w o = some b) (hl : LitLoads w o) : SndD m w o b := by
  cases o with
  | reg s id u =>
    simp only [opVal] at h
    split at h
    · rename_i r hr
      split at h
      · cases h
      · rename_i hs; cases h; exact .reg hr hs
    · cases h
  | int s l => cases h; exact .int hl
  | _ => cases h

theorem opVal_reg {m : Mach} {w s : Sfx} {id : Int} {u : Bool} {r : Reg} (h : callerAt id = .ok r) (hs : s ≠ .none) :
    opVal m w (.reg s id u) = some (conv u (get m r s) w.bits) := by
  simp [opVal, h, hs]

theorem sndBad_of {o : Ope} {w : Sfx} (h : ¬ Widens true o w) : ¬ sndBad o w := by
  cases o with
  | reg s id u => rintro ⟨rfl, rfl, rfl⟩; exact h ⟨rfl, id, rfl⟩
  | _ => exact id

theorem sndVia_of {o : Ope} {w : Sfx} (h : ¬ Widens false o w) : ¬ sndVia o w := by
  cases o with
  | reg s id u => rintro ⟨rfl, rfl, rfl⟩; exact h ⟨rfl, id, rfl⟩
  | _ => exact id

theorem opReg_eq (o : Ope) : opReg o = sndReg o := by cases o <;> rfl

theorem live_caller {live : List Bool} {r : Reg} (h : LiveReg live r) : r ∈ callerSaved :=
  let ⟨_, _, hr⟩ := h; (caller_ok hr).2.2.2.2.2

/-- generated code run, if there is any -/
def runGen (env : Env) (m : Mach) : Out (List XInst × Nat) → Res
  | .ok (cs, _) => run env m cs
  | _ => .fault

/-- the generated code ran through, left `v` in register `r` -/
theorem yields_reg {env : Env} {m : Mach} {code : Out (List XInst × Nat)} {d : Reg} {s : Sfx} {v : BitVec s.bits} {kept : Reg → Prop}
    (h : Yields env m code d s v kept) :
    (∃ x, resReg d (runGen env m code) = some x ∧ x.setWidth s.bits = v) ∧
    ∀ r, kept r → r ≠ d → resReg r (runGen env m code) = some (m.regs r) := by
  obtain ⟨cs, ev, m', h1, h2, h3, h4, _⟩ := h
  have : runGen env m code = .next m' := by rw [h1]; exact h2
  rw [this]
  exact ⟨⟨_, rfl, h3⟩, fun r hr hne => congrArg some (h4 r hr hne)⟩

/-- live ranges with the given flags -/
def seqs (live : List Bool) : List Liveseq := live.map fun b => if b then ⟨[⟨0, 1⟩], 0, 0⟩ else Liveseq.new

theorem seqs_alive (live : List Bool) : (seqs live).map Liveseq.isAlive = live.map Out.ok := by
  simp only [seqs, List.map_map]
  apply List.map_congr_left
  intro b _
  cases b <;> rfl

/-- eight flags, only register `k` live -/
def only (k : Nat) : List Bool := (List.range 8).map (· == k)

theorem shl_eq {w : Nat} (a : BitVec w) (n : Nat) : a <<< n = BitVec.ofNat w (a.toNat * 2 ^ n) := by
  apply BitVec.eq_of_toNat_eq
  rw [BitVec.toNat_shiftLeft, BitVec.toNat_ofNat, Nat.shiftLeft_eq]

theorem sar_eq {w : Nat} (a : BitVec w) (n : Nat) : a.sshiftRight n = BitVec.ofInt w (a.toInt / 2 ^ n) := by
  rw [BitVec.sshiftRight, Int.shiftRight_eq_div_pow]; simp

/-- for values without the top bit both right shifts agree -/
theorem shr_eq {w : Nat} (a : BitVec w) (n : Nat) (h : a.msb = false) : a.sshiftRight n = BitVec.ofNat w (a.toNat / 2 ^ n) := by
  rw [sar_eq, BitVec.toInt_eq_toNat_of_msb h]
  rw [← BitVec.ofInt_natCast]
  congr 1

theorem condOf_rel {w : Nat} {op : IOp} {u : Bool} {a b : BitVec w} {v : Bool} (h : rel op u a b = some v) : ∃ c, condOf op u = some c := by
  unfold rel at h
  split at h <;> first | exact ⟨_, rfl⟩ | cases h

end X86
end Umlcc
