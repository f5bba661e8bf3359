import Verif.Model.Immcgen
/-!
Inversion lemmas for the generator's monad and its functions.
-/
namespace Umlcc
namespace Gen

theorem bind_ok {m : GM α} {f : α → GM β} {s : GState} {b : β} {c : List Immc} {s' : GState} :
    (m >>= f) s = .ok (b, c, s') ↔
      ∃ a c1 s1 c2, m s = .ok (a, c1, s1) ∧ f a s1 = .ok (b, c2, s') ∧ c = c1 ++ c2 := by
  show GM.bind m f s = _ ↔ _
  unfold GM.bind
  constructor
  · intro h
    split at h <;> try cases h
    rename_i a c1 s1 hm
    split at h <;> try cases h
    rename_i b' c2 s2 hf
    exact ⟨_, _, _, _, hm, hf, rfl⟩
  · rintro ⟨a, c1, s1, c2, h1, h2, rfl⟩
    rw [h1]
    simp only [h2]

theorem pure_ok {a b : α} {s s' : GState} {c : List Immc} :
    (pure a : GM α) s = .ok (b, c, s') ↔ b = a ∧ c = [] ∧ s' = s := by
  show GM.pure a s = _ ↔ _
  simp [GM.pure, eq_comm]

theorem fatal_ok {b : α} {s s' : GState} {c : List Immc} : (fatal : GM α) s = .ok (b, c, s') ↔ False := by simp [fatal]
theorem ub_ok {b : α} {s s' : GState} {c : List Immc} : (ub : GM α) s = .ok (b, c, s') ↔ False := by simp [ub]
theorem get_ok {b s s' : GState} {c : List Immc} : get s = .ok (b, c, s') ↔ b = s ∧ c = [] ∧ s' = s := by simp [get, eq_comm]
theorem modify_ok {f : GState → GState} {s s' : GState} {b : Unit} {c : List Immc} :
    modify f s = .ok (b, c, s') ↔ c = [] ∧ s' = f s := by simp [modify, eq_comm]
theorem emit_ok {x : Immc} {s s' : GState} {b : Unit} {c : List Immc} :
    emit x s = .ok (b, c, s') ↔ c = [x] ∧ s' = s := by simp [emit, eq_comm]
theorem emits_ok {x : List Immc} {s s' : GState} {b : Unit} {c : List Immc} :
    emits x s = .ok (b, c, s') ↔ c = x ∧ s' = s := by simp [emits, eq_comm]

theorem capture_ok {m : GM α} {s s' : GState} {b : α × List Immc} {c : List Immc} :
    capture m s = .ok (b, c, s') ↔ c = [] ∧ m s = .ok (b.1, b.2, s') := by
  unfold capture
  cases h : m s with
  | ok x =>
    obtain ⟨a, c0, s0⟩ := x
    obtain ⟨b1, b2⟩ := b
    simp only [Out.ok.injEq, Prod.mk.injEq]
    constructor
    · rintro ⟨⟨rfl, rfl⟩, rfl, rfl⟩; simp
    · rintro ⟨rfl, rfl, rfl, rfl⟩; simp
  | _ => simp

theorem lift_ok {x : Out α} {s s' : GState} {b : α} {c : List Immc} :
    lift x s = .ok (b, c, s') ↔ x = .ok b ∧ c = [] ∧ s' = s := by
  unfold lift
  cases x <;> simp [eq_comm]

theorem newLabel_ok {s s' : GState} {b : Int} {c : List Immc} :
    newLabel s = .ok (b, c, s') ↔ b = s.lab + 1 ∧ c = [] ∧ s' = { s with lab := s.lab + 1 } := by
  simp only [newLabel, bind_ok, modify_ok, get_ok, pure_ok]
  constructor
  · rintro ⟨_, _, _, _, ⟨rfl, rfl⟩, ⟨_, _, _, _, ⟨rfl, rfl, rfl⟩, ⟨rfl, rfl, rfl⟩, rfl⟩, rfl⟩
    exact ⟨rfl, rfl, rfl⟩
  · rintro ⟨rfl, rfl, rfl⟩
    exact ⟨(), [], _, [], ⟨rfl, rfl⟩, ⟨_, [], _, [], ⟨rfl, rfl, rfl⟩, ⟨rfl, rfl, rfl⟩, rfl⟩, rfl⟩

theorem newReg_ok {s s' : GState} {b : Int} {c : List Immc} :
    newReg s = .ok (b, c, s') ↔ b = s.reg + 1 ∧ c = [] ∧ s' = { s with reg := s.reg + 1 } := by
  simp only [newReg, bind_ok, modify_ok, get_ok, pure_ok]
  constructor
  · rintro ⟨_, _, _, _, ⟨rfl, rfl⟩, ⟨_, _, _, _, ⟨rfl, rfl, rfl⟩, ⟨rfl, rfl, rfl⟩, rfl⟩, rfl⟩
    exact ⟨rfl, rfl, rfl⟩
  · rintro ⟨rfl, rfl, rfl⟩
    exact ⟨(), [], _, [], ⟨rfl, rfl⟩, ⟨_, [], _, [], ⟨rfl, rfl, rfl⟩, ⟨rfl, rfl, rfl⟩, rfl⟩, rfl⟩

theorem destReg_ok {t : DType} {s s' : GState} {b : Ope} {c : List Immc} :
    destReg t s = .ok (b, c, s') ↔
      b = .reg (Sfx.get t.nbytes) (s.reg + 1) t.isUnsigned ∧ c = [] ∧ s' = { s with reg := s.reg + 1 } := by
  simp only [destReg, bind_ok, newReg_ok, pure_ok]
  constructor
  · rintro ⟨_, _, _, _, ⟨rfl, rfl, rfl⟩, ⟨rfl, rfl, rfl⟩, rfl⟩
    exact ⟨rfl, rfl, rfl⟩
  · rintro ⟨rfl, rfl, rfl⟩
    exact ⟨_, [], _, [], ⟨rfl, rfl, rfl⟩, ⟨rfl, rfl, rfl⟩, rfl⟩

theorem nameOf_ok {n : Str} {s s' : GState} {b : Name} {c : List Immc} :
    nameOf n s = .ok (b, c, s') → b.1 = n ∧ c = [] ∧ s' = s := by
  unfold nameOf
  intro h
  split at h
  · cases h; exact ⟨rfl, rfl, rfl⟩
  · cases h

theorem setExpr_ok {o : Ope} {s s' : GState} {b : Unit} {c : List Immc} (h : setExpr o s = .ok (b, c, s')) :
    c = [] ∧ ∃ e, s' = { s with exprReg := e } := by
  cases o <;> simp only [setExpr, modify_ok, ub_ok] at h
  all_goals (try exact h.elim)
  all_goals (obtain ⟨rfl, rfl⟩ := h; exact ⟨rfl, _, rfl⟩)

theorem setExpr_reg {sf : Sfx} {r : Int} {u : Bool} {s s' : GState} {b : Unit} {c : List Immc} :
    setExpr (.reg sf r u) s = .ok (b, c, s') ↔ c = [] ∧ s' = { s with exprReg := some (sf, r, u) } := by
  simp only [setExpr, modify_ok]

theorem exprOpe_ok {s s' : GState} {b : Ope} {c : List Immc} (h : exprOpe s = .ok (b, c, s')) :
    c = [] ∧ s' = s ∧ ∃ sf r u, s.exprReg = some (sf, r, u) ∧ b = .reg sf r u := by
  simp only [exprOpe, bind_ok, get_ok] at h
  obtain ⟨_, _, s0, _, ⟨rfl, rfl, rfl⟩, h, rfl⟩ := h
  cases he : s0.exprReg with
  | none => simp [he, ub_ok] at h
  | some x =>
    obtain ⟨sf, r, u⟩ := x
    simp only [he, pure_ok] at h
    obtain ⟨rfl, rfl, rfl⟩ := h
    exact ⟨rfl, rfl, _, _, _, rfl, rfl⟩

/-! ### running known steps -/

/-- code put before the code of a result -/
def pre (c : List Immc) : Out (β × List Immc × GState) → Out (β × List Immc × GState)
  | .ok (b, c', s) => .ok (b, c ++ c', s)
  | .err => .err
  | .fatal => .fatal
  | .ub => .ub
  | .hang => .hang

theorem pre_ok {c c' : List Immc} {r : Out (β × List Immc × GState)} {b : β} {s' : GState} :
    pre c r = .ok (b, c', s') ↔ ∃ c2, r = .ok (b, c2, s') ∧ c' = c ++ c2 := by
  cases r with
  | ok x =>
    obtain ⟨b0, c0, s0⟩ := x
    simp only [pre, Out.ok.injEq, Prod.mk.injEq]
    constructor
    · rintro ⟨rfl, rfl, rfl⟩; exact ⟨_, ⟨rfl, rfl, rfl⟩, rfl⟩
    · rintro ⟨c2, ⟨rfl, rfl, rfl⟩, rfl⟩; simp
  | _ => simp [pre]

theorem pre_pre {c c' : List Immc} {r : Out (β × List Immc × GState)} : pre c (pre c' r) = pre (c ++ c') r := by
  cases r <;> simp [pre]

theorem pre_nil {r : Out (β × List Immc × GState)} : pre [] r = r := by
  cases r <;> simp [pre]

theorem pre_mk {c c' : List Immc} {b : β} {s : GState} : pre c (.ok (b, c', s)) = .ok (b, c ++ c', s) := rfl

theorem bind_run {m : GM α} {f : α → GM β} {s s1 : GState} {a : α} {c : List Immc} (h : m s = .ok (a, c, s1)) :
    (m >>= f) s = pre c (f a s1) := by
  show GM.bind m f s = _
  unfold GM.bind
  rw [h]
  dsimp only
  cases f a s1 <;> simp [pre]

theorem emit_bind {x : Immc} {f : Unit → GM β} {s : GState} : (emit x >>= f) s = pre [x] (f () s) := bind_run rfl
theorem emits_bind {x : List Immc} {f : Unit → GM β} {s : GState} : (emits x >>= f) s = pre x (f () s) := bind_run rfl
theorem newLabel_bind {f : Int → GM β} {s : GState} :
    (newLabel >>= f) s = f (s.lab + 1) { s with lab := s.lab + 1 } :=
  (bind_run (newLabel_ok.2 ⟨rfl, rfl, rfl⟩)).trans pre_nil
theorem newReg_bind {f : Int → GM β} {s : GState} :
    (newReg >>= f) s = f (s.reg + 1) { s with reg := s.reg + 1 } :=
  (bind_run (newReg_ok.2 ⟨rfl, rfl, rfl⟩)).trans pre_nil
theorem destReg_bind {t : DType} {f : Ope → GM β} {s : GState} :
    (destReg t >>= f) s = f (.reg (Sfx.get t.nbytes) (s.reg + 1) t.isUnsigned) { s with reg := s.reg + 1 } :=
  (bind_run (destReg_ok.2 ⟨rfl, rfl, rfl⟩)).trans pre_nil
theorem modify_bind {g : GState → GState} {f : Unit → GM β} {s : GState} : (modify g >>= f) s = f () (g s) :=
  (bind_run rfl).trans pre_nil
theorem get_bind {f : GState → GM β} {s : GState} : (get >>= f) s = f s s := (bind_run rfl).trans pre_nil
theorem pure_bind' {a : α} {f : α → GM β} {s : GState} : ((pure a : GM α) >>= f) s = f a s := (bind_run rfl).trans pre_nil
theorem emit_run {x : Immc} {s : GState} : emit x s = .ok ((), [x], s) := rfl
theorem emits_run {x : List Immc} {s : GState} : emits x s = .ok ((), x, s) := rfl
theorem modify_run {g : GState → GState} {s : GState} : modify g s = .ok ((), [], g s) := rfl
theorem setExpr_run {sf : Sfx} {r : Int} {u : Bool} {s : GState} :
    setExpr (.reg sf r u) s = .ok ((), [], { s with exprReg := some (sf, r, u) }) := rfl
theorem pure_run {a : α} {s : GState} : (pure a : GM α) s = .ok (a, [], s) := rfl

/-- simplification of a successful run: known steps are executed, the others give existential statements -/
macro "gm" " at " h:ident : tactic => `(tactic| simp only [emit_bind, emits_bind, newLabel_bind, newReg_bind, destReg_bind, modify_bind, get_bind, pure_bind',
  emit_run, emits_run, modify_run, setExpr_run, pure_run, pre_pre, pre_nil, pre_mk, pre_ok, bind_ok, Out.ok.injEq, Prod.mk.injEq, true_and,
  List.append_nil, List.nil_append, List.cons_append] at $h:ident)

end Gen
end Umlcc
