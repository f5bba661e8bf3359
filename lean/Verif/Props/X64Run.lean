import Verif.Lemma.X64Sim
import Verif.Lemma.X64Check
import Verif.Props.GenLive
/-!
C65: what the machine code of a function does is what C says.
-/
namespace Umlcc
namespace X86
open X64 (Item)
open CSem (safe)
open CStm
open IMach (Val Mem)
open Flow (freeBrks freeConts)
open Gen (limited)
open Gen

variable {W : Type}

/-- the registers the sequences `qx` report alive while the `len` lines of a function are translated are those recorded for lines `off`, `off + 1`, ... in `qs` -/
def SameReports (qs : List Liveseq) (off : Nat) (qx : List Liveseq) (len : Nat) : Prop :=
  qx.length = qs.length ∧ ∀ (j : Nat) q q2 k, qs[j]? = some q → qx[j]? = some q2 → k < len →
    ∃ a b f, q.nextN (off + k) = .ok a ∧ a.isAlive = .ok f ∧ q2.nextN k = .ok b ∧ b.isAlive = .ok f

/-- `items` is a program containing, after `P`, the machine code of a function: generated, its registers allocated, and translated -/
structure Built (f : Str) (ps : Params) (rt : DType) (b : SItems) (s : GState) (out : List Immc) (qx : List Liveseq) (P items : List Item) : Prop where
  compiled : ∃ code s' off qs fuel qs', Gen.funcCode f (.func ps rt) b s = .ok ((), code, s') ∧ Regalloc.allocFunction code off 8 qs fuel = .ok (out, qs') ∧
    SameReports qs' off qx out.length
  translated : ∃ more cs st Q, X64.genFunction ⟨out ++ more, qx, 0⟩ = .ok (cs, st) ∧ items = P ++ cs ++ Q
  /-- labels are not defined twice -/
  names : ∀ y ∈ P, ∀ x ∈ out, ∀ l, isItemLabel l y = true → RSpec.isLabelNamed l x = false

/-- machine and world of a configuration -/
def Conf.mach : Conf W → Mach
  | .at _ m _ | .done _ m _ => m
def Conf.world : Conf W → W
  | .at _ _ w | .done _ _ w => w

/-- What C65 asks: entered at item `p` with the arguments of `E` where the calling convention says and `F` bytes for its objects, `T` bytes of incoming arguments and
return address and enough stack, the machine code executes the function as C says: it comes back to its caller with the stack pointer and the registers to be kept, the
memory, the world and the value returned as they have to be. If the execution goes on for ever, so does the machine code: the number of steps grows with the bound on the execution.
`Serves` asks that the bytes the function is allowed to access do not include its saved registers and return address. -/
def Runs (I0 : Impl W) (E : IMach.Env W) (V : Vars) (f : Str) (ps : Params) (rt : DType) (b : SItems) (items : List Item) (p F T need : Nat) : Prop :=
  ∃ L K, ∀ (H : Host W) (D room : Nat), D < 2 ^ 61 → T < 2 ^ 61 → F + need + room ≤ D → Serves E H F D T room →
    ∀ e M w n r M' w', Entered E F D T M e → execFunc I0 n V f ps rt b E.args (M, w) = some (r, M', w') →
      match r with
      | .norm => ∃ t a m, ticks H items (.at p e w) t = some (.done a m w') ∧ Returned E F D T e M' none a m
      | .ret v => ∃ t a m, ticks H items (.at p e w) t = some (.done a m w') ∧ Returned E F D T e M' v a m
      | .more => ∃ t c, ticks H items (.at p e w) t = some c ∧ n ≤ t * L + K ∧ c.world = w' ∧ ∀ x, ¬ Priv E.bp F D T x → c.mach.mem x = M' x
      | .brk | .cont => False

/-- C65 in full: all functions the compiler accepts -/
def C65_full : Prop := ∀ (W : Type) (I : Impl W) (E : IMach.Env W) (V : Vars) (s : GState) (f : Str) (ps : Params) (rt : DType) (b : SItems) (out : List Immc) (qx : List Liveseq)
  (P items : List Item), I.base.lim = false → Fits I E → Agree E V s → -1 ≤ s.lab → f.head? ≠ some 46 → freeBrks b = false → freeConts b = false →
  Built f ps rt b s out qx P items → ∃ need, need < 2 ^ 32 ∧ Runs I E V f ps rt b items P.length (frameSize (frameOf out)) (inSize E.args.length) need

/-- largest of some numbers -/
def most (l : List Nat) : Nat := l.foldr max 0

theorem le_most {l : List Nat} {x : Nat} (h : x ∈ l) : x ≤ most l := by
  induction l with
  | nil => cases h
  | cons y l ih =>
    simp only [most, List.foldr_cons]
    rcases List.mem_cons.1 h with rfl | h
    · omega
    · have := ih h
      simp only [most] at this
      omega

/-- C65 for functions of the fragment of C36 whose allocated code meets `Suits`. Missing: what C36 misses, and the instructions whose machine code is wrong (C42, C44, C45, C46, C48). -/
theorem C65_stages_partial (I : Impl W) (E : IMach.Env W) (V : Vars) (s : GState) (f : Str) (ps : Params) (rt : DType) (b : SItems) (out : List Immc) (qx : List Liveseq)
    (P Q : List Item) {K : Nat} {flags : Nat → List Bool} {A : Nat → List Prep} {Z : Nat → Prop} (hf : Fits I E) (ha : Agree E V s) (hl : -1 ≤ s.lab)
    (hn : f.head? ≠ some 46) (hb : freeBrks b = false) (hc : freeConts b = false) (hs : soundAll b = true)
    {code : List Immc} {s' : GState} {off fuel : Nat} {qs qs' : List Liveseq} (hg : Gen.funcCode f (.func ps rt) b s = .ok ((), code, s'))
    (hal : Regalloc.allocFunction code off 8 qs fuel = .ok (out, qs')) {more : List Immc} {cs : List Item} {st : X64.St} (hx : X64.genFunction ⟨out ++ more, qx, 0⟩ = .ok (cs, st))
    (hnames : ∀ y ∈ P, ∀ x ∈ out, ∀ l, isItemLabel l y = true → RSpec.isLabelNamed l x = false)
    (hsuit : Suits out qx (frameOf out) E.args.length K flags A Z) (hframe : frameOf out < 2 ^ 31 - 16)
    {d : Nat} (hd : ∀ i, i < out.length → heldAll (A i) ≤ d) :
    Runs (limited I true) E V f ps rt b (P ++ cs ++ Q) P.length (frameSize (frameOf out)) (inSize E.args.length) (24 + d) := by
  obtain ⟨K0, key⟩ := Gen.C64_allocated_function_partial I E V s f ps rt b hf ha hl hn hb hc hs
  refine ⟨out.length, out.length + K0, ?_⟩
  intro H D room hD hT hroom hsv e M w n r M' w' hen hexec
  have h64 := key code s' off 8 qs fuel out qs' hg hal (fun _ => IMach.noVal) M w [] n r M' w' hexec
  have hr : ∀ i, 2 ≤ i → i < out.length → frameSize (frameOf out) + 16 + heldAll (A i) + 8 + room ≤ D := by
    intro i _ hi
    have := hd i hi
    omega
  have main := @func_run W out qx (frameOf out) E.args.length K flags A Z cs P Q H E D (inSize E.args.length) room e M (fun _ => IMach.noVal) w [] more st hsuit hx hnames
    hframe hD (Nat.le_refl _) hT hr hsv hen
  cases r with
  | norm =>
    obtain ⟨i, R', h64⟩ := h64
    obtain ⟨t, adr, m, -, h1, h2⟩ := (main h64).2 (Nat.le_refl _)
    exact ⟨t, adr, m, h1, h2⟩
  | ret v =>
    obtain ⟨i, R', h64⟩ := h64
    obtain ⟨t, adr, m, -, h1, h2⟩ := (main h64).2 (Nat.le_refl _)
    exact ⟨t, adr, m, h1, h2⟩
  | brk => exact h64
  | cont => exact h64
  | more =>
    obtain ⟨i, a, h64, h1, h2, h3⟩ := h64
    rcases Nat.lt_or_ge a.pc out.length with hlt | hge
    · obtain ⟨t, pc, m, h4, h5, h6⟩ := (main h64).1 hlt
      refine ⟨t, _, h5, by omega, h3, ?_⟩
      intro x hx
      rw [← h2]
      exact h6 x hx
    · obtain ⟨t, adr, m, h4, h5, h6⟩ := (main h64).2 hge
      refine ⟨t, _, h5, by omega, h3, ?_⟩
      intro x hx
      rw [← h2]
      exact h6.mem x hx

/-- The same for functions built in one go. -/
theorem C65_function_partial (I : Impl W) (E : IMach.Env W) (V : Vars) (s : GState) (f : Str) (ps : Params) (rt : DType) (b : SItems) (out : List Immc) (qx : List Liveseq)
    (P items : List Item) {K : Nat} {flags : Nat → List Bool} {A : Nat → List Prep} {Z : Nat → Prop} (hf : Fits I E) (ha : Agree E V s) (hl : -1 ≤ s.lab)
    (hn : f.head? ≠ some 46) (hb : freeBrks b = false) (hc : freeConts b = false) (hs : soundAll b = true) (hbuilt : Built f ps rt b s out qx P items)
    (hsuit : Suits out qx (frameOf out) E.args.length K flags A Z) (hframe : frameOf out < 2 ^ 31 - 16)
    {d : Nat} (hd : ∀ i, i < out.length → heldAll (A i) ≤ d) :
    Runs (limited I true) E V f ps rt b items P.length (frameSize (frameOf out)) (inSize E.args.length) (24 + d) := by
  obtain ⟨code, s', off, qs, fuel, qs', hg, hal, -⟩ := hbuilt.compiled
  obtain ⟨more, cs, st, Q, hx, rfl⟩ := hbuilt.translated
  exact C65_stages_partial I E V s f ps rt b out qx P Q hf ha hl hn hb hc hs hg hal hx hbuilt.names hsuit hframe hd

/-- bytes the arguments of the calls in preparation take -/
def heldMost (out : List Immc) (rounds : Nat) : Nat := most ((certify out rounds).map fun l => heldAll l.preps)

theorem heldMost_le {out : List Immc} {rounds i : Nat} : heldAll (lineAt (certify out rounds) i).preps ≤ heldMost out rounds := by
  unfold lineAt
  cases h : (certify out rounds)[i]? with
  | none => exact Nat.zero_le _
  | some l => exact le_most (List.mem_map.2 ⟨l, List.mem_of_getElem? h, rfl⟩)

/-- C65 for the functions that pass the test of `Spec/X64Check.lean`. Missing: as above. -/
theorem C65_checked_partial (I : Impl W) (E : IMach.Env W) (V : Vars) (s : GState) (f : Str) (ps : Params) (rt : DType) (b : SItems) (out : List Immc) (qx : List Liveseq)
    (P items : List Item) (rounds : Nat) (hf : Fits I E) (ha : Agree E V s) (hl : -1 ≤ s.lab)
    (hn : f.head? ≠ some 46) (hb : freeBrks b = false) (hc : freeConts b = false) (hs : soundAll b = true) (hbuilt : Built f ps rt b s out qx P items)
    (hchk : checked out qx E.args.length rounds = true) (hframe : frameOf out < 2 ^ 31 - 16) :
    Runs (limited I true) E V f ps rt b items P.length (frameSize (frameOf out)) (inSize E.args.length) (24 + heldMost out rounds) :=
  C65_function_partial I E V s f ps rt b out qx P items hf ha hl hn hb hc hs hbuilt (suits_of hchk) hframe fun _ _ => heldMost_le

/-! ### examples -/

/-- a program that consists of one function -/
def build (f : Str) (ps : Params) (rt : DType) (b : SItems) (s : GState) (fuel : Nat) : Option (List Immc × List Liveseq × List Item) :=
  match Gen.funcCode f (.func ps rt) b s with
  | .ok (_, code, _) => match Regalloc.allocFunction code 0 8 (List.replicate 8 Liveseq.new) fuel with
    | .ok (out, qs) => match X64.genFunction ⟨out, qs, 0⟩ with
      | .ok (cs, _) => if (List.range out.length).all (reportsB qs) then some (out, qs, cs) else none
      | _ => none
    | _ => none
  | _ => none

theorem built_of {f : Str} {ps : Params} {rt : DType} {b : SItems} {s : GState} {fuel : Nat} {out : List Immc} {qx : List Liveseq} {items : List Item}
    (h : build f ps rt b s fuel = some (out, qx, items)) : Built f ps rt b s out qx [] items := by
  unfold build at h
  split at h
  · rename_i u code s' hg
    split at h
    · rename_i out' qs' ha
      split at h
      · rename_i cs st hx
        split at h
        · rename_i hr
          cases h
          refine ⟨⟨code, s', 0, _, fuel, qx, hg, ha, rfl, ?_⟩, ⟨[], items, st, [], by simpa using hx, by simp⟩, fun y hy => by cases hy⟩
          intro j q q2 k h1 h2 hk
          rw [h1] at h2
          cases h2
          obtain ⟨q', e1, fl, -, e2⟩ := reports_of (List.all_eq_true.1 hr k (List.mem_range.2 hk)) j q h1
          exact ⟨q', q', fl, by simpa using e1, e2, e1, e2⟩
        · cases h
      · cases h
    · cases h
  · cases h

/-- the 16 bytes of local objects -/
def frameBytes (a : BitVec 64) : Bool := decide (4080 ≤ a.toNat) && decide (a.toNat < 4096)

theorem frameBytes_free {D T : Nat} (hD : D < 2 ^ 61) (hT : T < 2 ^ 61) (a : BitVec 64) (h : frameBytes a = true) : ¬ Priv 4096 16 D T a := by
  rintro ⟨x, rfl, hx⟩
  simp only [frameBytes, Bool.and_eq_true, decide_eq_true_eq] at h
  rw [BitVec.toNat_add, BitVec.toNat_ofInt] at h
  have e : (4096 : BitVec 64).toNat = 4096 := rfl
  rw [e] at h
  omega

/-- a world in which nothing can be called -/
def quietEnv (args : List Val) : IMach.Env Nat := { bp := 4096, glob := fun _ => 8192, call := fun _ _ _ _ _ => none, args := args, ok := frameBytes }
def quietHost : Host Nat := ⟨fun _ => 8192, fun _ _ _ => none, fun _ => 77⟩

theorem quiet_serves {args : List Val} {D T room : Nat} (hD : D < 2 ^ 61) (hT : T < 2 ^ 61) : Serves (quietEnv args) quietHost 16 D T room :=
  ⟨fun _ _ _ _ _ h => (by cases h), frameBytes_free hD hT, rfl, fun _ _ _ _ _ _ _ _ _ _ h => (by cases h)⟩

/-- one argument, in `rdi`; the return address is 33 -/
def entryMach (v : BitVec 64) : Mach := ⟨fun r => match r with
  | .sp => 4104
  | .di => v
  | _ => 7, fun a => if a = 4104 then 33 else 0, none⟩

theorem entered_of {E : IMach.Env Nat} {x : BitVec 32} {F D T : Nat} (hbp : E.bp = 4096) (ha : E.args = [⟨.long, x⟩]) : Entered E F D T (entryMach (x.setWidth 64)).mem (entryMach (x.setWidth 64)) := by
  refine ⟨by rw [hbp]; rfl, by show ((4104 : BitVec 64).toNat + 8) % 16 = 0; decide, ?_, fun _ _ => rfl⟩
  intro k v h
  rw [ha] at h
  match k, h with
  | 0, h =>
    cases h
    show (x.setWidth 64).setWidth 32 = x
    simp

/-- `return n++ < 3;` with a parameter `int n` -/
def countSample : SItems := .cons (.stmt (.ret (some (.bin .less .int (.un .postinc .int (.un .addr (.ptr .int) (.ident .int [110]))) (.ilit .int ⟨.int, 3⟩))))) .nil
def countParams : Params := .cons (some [110]) .int .nil

theorem done_ticks {H : Host W} {code : List Item} {a : BitVec 64} {x : Mach} {v : W} : ∀ d, ticks H code (.done a x v) (d + 1) = none
  | 0 => rfl
  | d + 1 => by rw [ticks, done_ticks d]; rfl

theorem ticks_done {H : Host W} {code : List Item} {c : Conf W} {s t : Nat} {a b : BitVec 64} {x y : Mach} {v w : W} (h1 : ticks H code c s = some (.done a x v))
    (h2 : ticks H code c t = some (.done b y w)) : x = y := by
  rcases Nat.lt_trichotomy s t with h | h | h
  · obtain ⟨d, rfl⟩ := Nat.exists_eq_add_of_lt h
    rw [Nat.add_assoc, ticks_add, h1, Option.bind_some, done_ticks] at h2
    cases h2
  · subst h
    rw [h1] at h2
    cases h2; rfl
  · obtain ⟨d, rfl⟩ := Nat.exists_eq_add_of_lt h
    rw [Nat.add_assoc, ticks_add, h2, Option.bind_some, done_ticks] at h1
    cases h1

/-- C65 fails: called with 5, `return n++ < 3;` gives 0 in C, the machine code returns 5 (`setl %cl; movzbl %dl, %ecx`; also C44). -/
theorem C65_violated : ¬ C65_full := by
  intro h
  have key : (match build [102] countParams .int countSample initial 99 with
    | some (out, _, items) => decide (frameOf out = 4) && (match ticks quietHost items (.at 0 (entryMach 5) 0) 18 with
      | some (.done _ m _) => decide (get m .ax .long = 5)
      | _ => false)
    | none => false) = true := by decide +kernel
  obtain ⟨⟨r, m', w'⟩, hx, hv⟩ := Option.map_eq_some_iff.1
    (show (execFunc (implOf (quietEnv [⟨.long, 5⟩]) false) 9 (varsOf (quietEnv [⟨.long, 5⟩]) initial) [102] countParams .int countSample [⟨.long, 5⟩] ((entryMach 5).mem, 0)).map (·.1)
      = some (.ret (some ⟨.long, 0⟩)) by decide +kernel)
  dsimp only at hv
  subst hv
  split at key
  · rename_i out qx items hb
    simp only [Bool.and_eq_true, decide_eq_true_eq] at key
    obtain ⟨k1, k3⟩ := key
    obtain ⟨need, hneed, L, K, h⟩ := h Nat (implOf (quietEnv [⟨.long, 5⟩]) false) (quietEnv [⟨.long, 5⟩]) (varsOf (quietEnv [⟨.long, 5⟩]) initial) initial [102] countParams .int
      countSample out qx [] items rfl (fits_implOf _ _) (agree_varsOf _ _) (by decide) (by decide) (by decide) (by decide) (built_of hb)
    rw [k1] at h
    obtain ⟨t, a, m, h1, h2⟩ := h quietHost (frameSize 4 + need) 0 (by simp only [frameSize]; omega) (by decide) (Nat.le_refl _) (quiet_serves (by simp only [frameSize]; omega) (by decide)) (entryMach 5) _ 0 9 _ m' w'
      (entered_of (x := 5) rfl rfl) hx
    have h3 := h2.result _ rfl
    split at k3
    · rename_i m2 _ hd
      rw [ticks_done hd h1] at k3
      rw [decide_eq_true_eq, h3] at k3
      revert k3
      decide
    · cases k3
  · cases key

/-- The loops of C36 meet the hypotheses: the machine code, entered with 5, returns 9 as the C function does. -/
example : ∃ out qx items, Built [102] loopParams .int loopSample initial out qx [] items ∧ checked out qx 1 9 = true ∧ frameOf out < 2 ^ 31 - 16 ∧
    Fits (implOf (quietEnv [⟨.long, 5⟩]) true) (quietEnv [⟨.long, 5⟩]) ∧ Agree (quietEnv [⟨.long, 5⟩]) (varsOf (quietEnv [⟨.long, 5⟩]) initial) initial ∧
    freeBrks loopSample = false ∧ freeConts loopSample = false ∧ soundAll loopSample = true ∧
    Serves (quietEnv [⟨.long, 5⟩]) quietHost (frameSize 12) 4000 (inSize 1) 0 ∧
    Entered (quietEnv [⟨.long, 5⟩]) (frameSize 12) 4000 (inSize 1) (entryMach 5).mem (entryMach 5) ∧
    frameOf out = 12 ∧ frameSize 12 + (24 + heldMost out 9) + 0 ≤ 4000 ∧
    (execFunc (implOf (quietEnv [⟨.long, 5⟩]) true) 40 (varsOf (quietEnv [⟨.long, 5⟩]) initial) [102] loopParams .int loopSample [⟨.long, 5⟩] ((entryMach 5).mem, 0)).map (·.1)
      = some (.ret (some ⟨.long, 9⟩)) ∧
    (match ticks quietHost items (.at 0 (entryMach 5) 0) 155 with
      | some (.done a m _) => (a, get m .ax .long)
      | _ => (0, 0)) = (33, 9) := by
  have key : (match build [102] loopParams .int loopSample initial 99 with
    | some (out, qx, items) => checked out qx 1 9 && decide (frameOf out = 12) && decide (heldMost out 9 = 0) && decide ((match ticks quietHost items (.at 0 (entryMach 5) 0) 155 with
      | some (.done a m _) => (a, get m .ax .long)
      | _ => (0, 0)) = (33, 9))
    | none => false) = true := by decide +kernel
  split at key
  · rename_i out qx items hb
    simp only [Bool.and_eq_true, decide_eq_true_eq] at key
    obtain ⟨⟨⟨k1, k2⟩, k4⟩, k5⟩ := key
    refine ⟨out, qx, items, built_of hb, k1, by rw [k2]; decide, fits_implOf _ _, agree_varsOf _ _, by decide, by decide, by decide, quiet_serves (by decide) (by decide), entered_of (x := 5) rfl rfl,
      k2, by rw [k4]; decide, by decide +kernel, k5⟩
  · cases key

/-! A function that calls another one. -/

/-- any function that is called returns its argument, an `int`, and counts the call -/
def echoEnv (args : List Val) : IMach.Env Nat := { bp := 4096, glob := fun _ => 8192, args := args, ok := frameBytes, call := fun _ vs _ M w => match vs with
  | [⟨.long, x⟩] => some (M, w + 1, x.setWidth 64)
  | _ => none }

def echoHost : Host Nat := ⟨fun _ => 8192, fun _ m w => some ({ m with regs := fun r => match r with
  | .ax => (m.regs .di).setWidth 32 |>.setWidth 64
  | .sp => m.regs .sp + 8
  | r => m.regs r }, w + 1), fun _ => 77⟩

theorem echo_serves {args : List Val} {D T room : Nat} (hD : D < 2 ^ 61) (hT : T < 2 ^ 61) : Serves (echoEnv args) echoHost 16 D T room := by
  refine ⟨?_, frameBytes_free hD hT, rfl, ?_⟩
  · intro p w t x y h
    cases h
    refine ⟨?_, rfl⟩
    intro r hr
    simp only [sysvKept, List.mem_cons, List.not_mem_nil, or_false] at hr
    rcases hr with rfl | rfl | rfl | rfl | rfl | rfl <;> rfl
  · intro t vs s M w M' w' r m x hc h1 h2 h3 h4 ha hm
    simp only [echoEnv] at hc
    split at hc
    · rename_i v
      cases hc
      refine ⟨_, rfl, ?_, hm, fun _ _ _ _ => rfl⟩
      have : (m.regs .di).setWidth 32 = v := ha 0 ⟨.long, v⟩ rfl
      show BitVec.setWidth _ (((m.regs .di).setWidth 32).setWidth 64) = _
      rw [this]
    · cases hc

/-- `return f(n + 1) + n;` -/
def callSample : SItems := .cons (.stmt (.ret (some (.bin .add .int
  (.call .int (.un .addr (.ptr (.func countParams .int)) (.ident (.func countParams .int) [102])) (.ofList [.bin .add .int (.ident .int [110]) (.ilit .int ⟨.int, 1⟩)]))
  (.ident .int [110]))))) .nil

/-- The call meets the hypotheses: entered with 5, the machine code makes the call, and returns 6 + 5. -/
example : ∃ out qx items, Built [102] countParams .int callSample initial out qx [] items ∧ checked out qx 1 9 = true ∧ frameOf out < 2 ^ 31 - 16 ∧
    Fits (implOf (echoEnv [⟨.long, 5⟩]) true) (echoEnv [⟨.long, 5⟩]) ∧ Agree (echoEnv [⟨.long, 5⟩]) (varsOf (echoEnv [⟨.long, 5⟩]) initial) initial ∧
    freeBrks callSample = false ∧ freeConts callSample = false ∧ soundAll callSample = true ∧
    Serves (echoEnv [⟨.long, 5⟩]) echoHost (frameSize 4) 4000 (inSize 1) 1000 ∧
    Entered (echoEnv [⟨.long, 5⟩]) (frameSize 4) 4000 (inSize 1) (entryMach 5).mem (entryMach 5) ∧
    frameOf out = 4 ∧ frameSize 4 + (24 + heldMost out 9) + 1000 ≤ 4000 ∧
    (execFunc (implOf (echoEnv [⟨.long, 5⟩]) true) 40 (varsOf (echoEnv [⟨.long, 5⟩]) initial) [102] countParams .int callSample [⟨.long, 5⟩] ((entryMach 5).mem, 0)).map
      (fun x => (x.1, x.2.2)) = some (.ret (some ⟨.long, 11⟩), 1) ∧
    (match ticks echoHost items (.at 0 (entryMach 5) 0) 20 with
      | some (.done a m w) => (a, get m .ax .long, w)
      | _ => (0, 0, 0)) = (33, 11, 1) := by
  have key : (match build [102] countParams .int callSample initial 99 with
    | some (out, qx, items) => checked out qx 1 9 && decide (frameOf out = 4) && decide (heldMost out 9 ≤ 100) && decide ((match ticks echoHost items (.at 0 (entryMach 5) 0) 20 with
      | some (.done a m w) => (a, get m .ax .long, w)
      | _ => (0, 0, 0)) = (33, 11, 1))
    | none => false) = true := by decide +kernel
  split at key
  · rename_i out qx items hb
    simp only [Bool.and_eq_true, decide_eq_true_eq] at key
    obtain ⟨⟨⟨k1, k2⟩, k4⟩, k5⟩ := key
    refine ⟨out, qx, items, built_of hb, k1, by rw [k2]; decide, fits_implOf _ _, agree_varsOf _ _, by decide, by decide, by decide, echo_serves (by decide) (by decide), entered_of (x := 5) rfl rfl,
      k2, ?_, by decide +kernel, k5⟩
    simp only [frameSize]
    omega
  · cases key

end X86
end Umlcc
