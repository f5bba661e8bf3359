import Verif.Lemma.TidyExprs
import Verif.Lemma.LiveStmt
import Verif.Lemma.Fit
/-!
The code of statements: every item is a jump, or reads its registers for the last time, or belongs to the few items of a `++` or `--`.
-/
namespace Umlcc
namespace Tidy
open RSpec (reads writes opeRegs branches)
open Gen hiding Branch Branch.defs
open CSem (fresh safe safeArgs)
open CStm
open Live (reads_inst GLive expr_live args_live declare_reg)

/-- `x`, with `a` before it and `b` after it, begins a stretch without labels and jumps that reads three neighbouring registers at most, and nothing written
up to its end is read after it -/
def Stretch (lo : Int) (a : List Immc) (x : Immc) (b : List Immc) : Prop :=
  ∃ b1 b2 w, b = b1 ++ b2 ∧ lo < w ∧ (∀ y ∈ x :: b1, y.isJump = false ∧ y.isLabel = false ∧ RSpec.target y = none) ∧ (∀ y ∈ x :: b1, ∀ v ∈ reads y, w ≤ v ∧ v ≤ w + 2) ∧
    ∀ y ∈ a ++ x :: b1, ∀ z ∈ b2, ∀ v, writes y = some v → v ∉ reads z

def Item (lo : Int) (a : List Immc) (x : Immc) (b : List Immc) : Prop :=
  (x.isJump = true ∧ writes x = none) ∨ ((reads x).Nodup ∧ ∀ v ∈ reads x, writes x ≠ some v → ∀ y ∈ b, v ∉ reads y) ∨ Stretch lo a x b

/-- a call without a destination -/
def isVoidCall : Immc → Bool
  | .inst i => decide (i.op = .call) && i.dst.isNone
  | _ => false

/-- what is read after a call without a destination is newer than all that is written before it -/
def Hush (c : List Immc) : Prop := ∀ a x b, c = a ++ x :: b → isVoidCall x = true → ∀ y ∈ a, ∀ z ∈ b, ∀ v u, writes y = some v → u ∈ reads z → v < u

/-- the items fit, and names of objects stay listed -/
def Suits (K : Kind) (s : GState) (c : List Immc) (s' : GState) : Prop := I K s → ((∀ x ∈ c, Fit K.any x) ∧ Hush c) ∧ I K s'

/-- the code of a statement between two states -/
structure SRuns (K : Kind) (s : GState) (c : List Immc) (s' : GState) (k : Nat) : Prop where
  reg : s.reg ≤ s'.reg
  rd : ∀ x ∈ c, ∀ v ∈ reads x, s.reg < v ∧ v ≤ s'.reg
  wr : ∀ x ∈ c, ∀ v, writes x = some v → s.reg < v ∧ v ≤ s'.reg
  ord : ∀ a x b, c = a ++ x :: b → Item s.reg a x b
  aim : ∀ x ∈ c, x.isJump = true → RSpec.target x ≠ none
  level : Level c [] k
  call : CallsNew c
  fit : K.q = true → Suits K s c s'

variable {K : Kind}

theorem Fit.noVoid {x : Immc} (h : Fit K.val x) : isVoidCall x = false := by
  cases x with
  | inst i =>
    obtain ⟨op, d, f, g⟩ := i
    cases op <;> first | rfl | skip
    simp only [Fit, fitInst, Kind.val, Bool.and_eq_true, Bool.not_true, Bool.false_or] at h
    simp only [isVoidCall]
    cases d
    · simp at h
    · rfl
  | _ => rfl

theorem Suits.of {s s' : GState} {c : List Immc} (h : Piece K.val s c s') : Suits K s c s' := fun hI => by
  obtain ⟨h1, h2⟩ := h hI
  exact ⟨⟨fun x hx => (h1 x hx).val, fun a x b e hv => by rw [(h1 x (by simp [e])).noVoid] at hv; cases hv⟩, h2⟩

theorem SRuns.make {s s' : GState} {c : List Immc} {R : List Int} {k : Nat} (h : Runs s c s' R k) (hf : K.q = true → Suits K s c s') : SRuns K s c s' k where
  reg := h.reg
  rd := h.rd
  wr := h.wr
  ord a x b e := by
    cases hj : x.isJump with
    | true => exact .inl ⟨hj, (h.jw x (by simp [e]) hj).1⟩
    | false => exact .inr (.inl ⟨h.two x (by simp [e]) hj, fun v hv hw => h.solo a x b e v ⟨hv, hw, hj⟩⟩)
  aim x hx hj := (h.jw x hx hj).2
  level := h.level.mono (by simp) (Nat.le_refl _)
  call := h.call
  fit := hf

theorem SRuns.of {s s' : GState} {c : List Immc} {R : List Int} {k : Nat} (h : Runs s c s' R k) (hf : K.q = true → Piece K.val s c s') : SRuns K s c s' k :=
  .make h fun q => .of (hf q)

theorem SRuns.to {s s' t t' : GState} {c : List Immc} {k k' : Nat} (h : SRuns K s c s' k) (hr : t.reg = s.reg) (hl : t'.reg = s'.reg) (hk : k ≤ k')
    (hi : K.q = true → I K t → I K s := by exact fun _ h => h) (hi' : K.q = true → I K s' → I K t' := by exact fun _ h => h) : SRuns K t c t' k' := by
  obtain ⟨h1, h2, h3, h4, h6, h5, h7, h8⟩ := h
  rw [← hr, ← hl] at h1 h2 h3
  rw [← hr] at h4
  exact ⟨h1, h2, h3, h4, h6, h5.mono (fun _ _ _ _ _ h _ => h) hk, h7, fun q h => ⟨(h8 q (hi q h)).1, hi' q (h8 q (hi q h)).2⟩⟩

theorem SRuns.refl (s : GState) (k : Nat) : SRuns K s [] s k := .of (.nil rfl k) fun _ => .refl s

theorem SRuns.seq {s s1 s' : GState} {a b : List Immc} {k : Nat} (h : SRuns K s a s1 k) (g : SRuns K s1 b s' k) : SRuns K s (a ++ b) s' k := by
  have hb := h.reg
  have gb := g.reg
  refine ⟨by omega, ?_, ?_, ?_, ?_, ?_, ?_, ?_⟩
  · intro x hx v hv
    rcases List.mem_append.1 hx with hx | hx
    · have := h.rd x hx v hv; omega
    · have := g.rd x hx v hv; omega
  · intro x hx v hv
    rcases List.mem_append.1 hx with hx | hx
    · have := h.wr x hx v hv; omega
    · have := g.wr x hx v hv; omega
  · intro p x q e
    rcases append_split e with ⟨q', rfl, rfl⟩ | ⟨p', rfl, rfl⟩
    · rcases h.ord p x q' rfl with hi | ⟨h1, h2⟩ | ⟨b1, b2, w, rfl, h1, h2, h3, h4⟩
      · exact .inl hi
      · refine .inr (.inl ⟨h1, fun v hv hw y hy => ?_⟩)
        rcases List.mem_append.1 hy with hy | hy
        · exact h2 v hv hw y hy
        · intro hm
          have := g.rd y hy v hm
          have := h.rd x (by simp) v hv
          omega
      · refine .inr (.inr ⟨b1, b2 ++ b, w, by simp, h1, h2, h3, fun y hy z hz v hw => ?_⟩)
        rcases List.mem_append.1 hz with hz | hz
        · exact h4 y hy z hz v hw
        · intro hm
          have := g.rd z hz v hm
          have := h.wr y (by simp at hy ⊢; grind) v hw
          omega
    · rcases g.ord p' x q rfl with hi | hi | ⟨b1, b2, w, rfl, h1, h2, h3, h4⟩
      · exact .inl hi
      · exact .inr (.inl hi)
      · refine .inr (.inr ⟨b1, b2, w, rfl, by omega, h2, h3, fun y hy z hz v hw => ?_⟩)
        rw [List.append_assoc] at hy
        rcases List.mem_append.1 hy with hy | hy
        · intro hm
          have := h.wr y hy v hw
          have := g.rd z (by simp [hz]) v hm
          omega
        · exact h4 y hy z hz v hw
  · intro x hx
    rcases List.mem_append.1 hx with hx | hx
    · exact h.aim x hx
    · exact g.aim x hx
  · intro p x q e w hw l hl hu
    rcases append_split e with ⟨q', rfl, rfl⟩ | ⟨p', rfl, rfl⟩
    · refine h.level p x q' rfl w hw l hl fun u hu' => ?_
      obtain ⟨u1, u2⟩ := hu u hu'
      refine ⟨u1, u2.imp ?_ id⟩
      rintro ⟨y, hy, hm⟩
      rcases List.mem_append.1 hy with hy | hy
      · exact ⟨y, hy, hm⟩
      · have := g.rd y hy u hm
        have := h.wr x (by simp) w hw
        omega
    · exact g.level p' x q rfl w hw l hl hu
  · intro p x q e hc w hw y hy v hv
    rcases append_split e with ⟨q', rfl, rfl⟩ | ⟨p', rfl, rfl⟩
    · exact h.call p x q' rfl hc w hw y hy v hv
    · rcases List.mem_append.1 hy with hy | hy
      · have := h.wr y hy v hv
        have := g.wr x (by simp) w hw
        omega
      · exact g.call p' x q rfl hc w hw y hy v hv
  · intro q hI
    obtain ⟨⟨h1, h2⟩, h3⟩ := h.fit q hI
    obtain ⟨⟨g1, g2⟩, g3⟩ := g.fit q h3
    refine ⟨⟨fun x hx => (List.mem_append.1 hx).elim (h1 x) (g1 x), ?_⟩, g3⟩
    intro p x q e hx y hy z hz v u hv hm
    rcases append_split e with ⟨q', rfl, rfl⟩ | ⟨p', rfl, rfl⟩
    · rcases List.mem_append.1 hz with hz | hz
      · exact h2 p x q' rfl hx y hy z hz v u hv hm
      · have := h.wr y (by simp [hy]) v hv
        have := g.rd z hz u hm
        omega
    · rcases List.mem_append.1 hy with hy | hy
      · have := h.wr y hy v hv
        have := g.rd z (by simp [hz]) u hm
        omega
      · exact g2 p' x q rfl hx y hy z hz v u hv hm

/-- an item that has nothing to do with registers -/
theorem SRuns.one (s : GState) (k : Nat) {x : Immc} (hr : reads x = []) (hw : writes x = none)
    (ha : x.isJump = true → RSpec.target x ≠ none := by first | exact fun h => absurd h Bool.false_ne_true | exact fun _ => Option.some_ne_none _)
    (hf : K.q = true → Fit K.val x := by exact fun _ => by first | trivial | rfl) : SRuns K s [x] s k := .of ((Runs.nil rfl k).skip hr hw ha) fun q => .one s (hf q)

/-- the few items of a `++` or `--` -/
theorem SRuns.step {s s1 s' : GState} {c t : List Immc} {p : Ope} {k k' : Nat} (h : Runs s c s1 (opeRegs (some p)) k) (hp : Place s1 p)
    (ht : ∀ x ∈ t, (x.isJump = false ∧ x.isLabel = false ∧ RSpec.target x = none) ∧ (∀ v ∈ reads x, v ∈ opeRegs (some p) ∨ v = s1.reg + 1) ∧ ∀ v, writes x = some v → s1.reg < v ∧ v ≤ s'.reg)
    (h1 : s1.reg + 1 ≤ s'.reg) (hk : k ≤ k') (hk2 : 2 ≤ k') (hnc : ∀ x ∈ t, isCall x = false) (hf : K.q = true → Piece K.val s (c ++ t) s') : SRuns K s (c ++ t) s' k' := by
  have hb := h.reg
  refine ⟨by omega, ?_, ?_, ?_, ?_, ?_, ?_, ?_⟩
  · intro x hx v hv
    rcases List.mem_append.1 hx with hx | hx
    · have := h.rd x hx v hv; omega
    · rcases (ht x hx).2.1 v hv with hm | hm
      · have := (h.res v hm).1; omega
      · omega
  · intro x hx v hv
    rcases List.mem_append.1 hx with hx | hx
    · have := h.wr x hx v hv; omega
    · have := (ht x hx).2.2 v hv; omega
  · intro a x b e
    rcases append_split e with ⟨q', rfl, rfl⟩ | ⟨p', rfl, rfl⟩
    · cases hj : x.isJump with
      | true => exact .inl ⟨hj, (h.jw x (by simp) hj).1⟩
      | false =>
        refine .inr (.inl ⟨h.two x (by simp) hj, fun v hv hw y hy hm => ?_⟩)
        rcases List.mem_append.1 hy with hy | hy
        · exact h.solo a x q' rfl v ⟨hv, hw, hj⟩ y hy hm
        · rcases (ht y hy).2.1 v hm with hm | hm
          · exact (h.res v hm).2 x (by simp) ⟨hv, hw, hj⟩
          · have := h.rd x (by simp) v hv; omega
    · refine .inr (.inr ⟨b, [], if opeRegs (some p) = [] then s1.reg + 1 else s1.reg, by simp, ?_, fun y hy => (ht y (by simp at hy ⊢; grind)).1, ?_, by simp⟩)
      · split
        · omega
        · rename_i hn
          cases p with
          | ptr r =>
            have := hp.2 r rfl
            have := (h.res r (by simp [opeRegs])).1
            omega
          | reg sf r u => exact absurd rfl (hp.1 _ _ _)
          | _ => exact absurd rfl hn
      · intro y hy v hv
        rcases (ht y (by simp at hy ⊢; grind)).2.1 v hv with hm | hm
        · split
          · rename_i hn; rw [hn] at hm; cases hm
          · cases p with
            | ptr r =>
              have := hp.2 r rfl
              simp [opeRegs] at hm
              omega
            | reg sf r u => exact absurd rfl (hp.1 _ _ _)
            | _ => cases hm
        · split <;> omega
  · intro x hx hj
    rcases List.mem_append.1 hx with hx | hx
    · exact (h.jw x hx hj).2
    · rw [(ht x hx).1.1] at hj; cases hj
  · intro a x b e w hw l hl hu
    rcases append_split e with ⟨q', rfl, rfl⟩ | ⟨p', rfl, rfl⟩
    · refine Nat.le_trans (h.level a x q' rfl w hw l hl fun u hu' => ?_) hk
      obtain ⟨u1, u2⟩ := hu u hu'
      have := h.wr x (by simp) w hw
      refine ⟨u1, ?_⟩
      rcases u2 with ⟨y, hy, hm⟩ | hm
      · rcases List.mem_append.1 hy with hy | hy
        · exact .inl ⟨y, hy, hm⟩
        · rcases (ht y hy).2.1 u hm with hm | hm
          · exact .inr hm
          · omega
      · cases hm
    · refine Nat.le_trans (nodup_le (m := opeRegs (some p) ++ [s1.reg + 1]) hl fun u hu' => ?_) (Nat.le_trans ?_ hk2)
      · rcases (hu u hu').2 with ⟨y, hy, hm⟩ | hm
        · simpa using (ht y (by simp [hy])).2.1 u hm
        · cases hm
      · cases p <;> simp [opeRegs]
  · intro a x b e hx w hw y hy v hv
    rcases append_split e with ⟨q', rfl, rfl⟩ | ⟨p', rfl, rfl⟩
    · exact h.call a x q' rfl hx w hw y hy v hv
    · rw [hnc x (by simp)] at hx; cases hx
  · exact fun q => .of (hf q)

theorem incdec_runs {k k' : Nat} {op : IOp} (ho : op.isJump = false) {post : Bool} {t : DType} {e : G} (he : GRuns k true e) (hk : k ≤ k') (hk2 : 2 ≤ k') {s s' : GState} {c : List Immc}
    (h : incdecCode op post t e s = .ok ((), c, s')) (hnc : op ≠ .call := by exact nofun) (hf : K.q = true → Piece K.val s c s') : SRuns K s c s' k' := by
  cases post
  · obtain ⟨p, c1, s1, l, h1, _, rfl, rfl⟩ := incdecPre_ok h
    obtain ⟨g, hp⟩ := he.ptr rfl h1
    refine SRuns.step g hp ?_ (by simp) hk hk2 (by simp [isCall, inst, load, hnc]) hf
    have hw : writes (inst .store (some p) (some (.reg (Sfx.get t.nbytes) (s1.reg + 1) t.isUnsigned)) none) = none := by cases p <;> first | rfl | exact absurd rfl (hp.1 _ _ _)
    have hr : ∀ v, v ∈ reads (inst .store (some p) (some (.reg (Sfx.get t.nbytes) (s1.reg + 1) t.isUnsigned)) none) → v ∈ opeRegs (some p) ∨ v = s1.reg + 1 := by
      intro v hv
      rw [reads_inst] at hv
      rcases hv with hv | hv | ⟨id, h1, rfl⟩
      · right; simpa [opeRegs] using hv
      · cases hv
      · cases h1; left; simp [opeRegs]
    have hq : RSpec.target (inst .store (some p) (some (.reg (Sfx.get t.nbytes) (s1.reg + 1) t.isUnsigned)) none) = none := by cases p <;> rfl
    intro x hx
    simp only [List.mem_cons, List.not_mem_nil, or_false] at hx
    rcases hx with rfl | rfl | rfl
    · exact ⟨⟨rfl, rfl, rfl⟩, fun v hv => .inl (by simpa [load, inst, reads, opeRegs] using hv), fun v hv => by cases hv; simp; omega⟩
    · exact ⟨⟨ho, rfl, rfl⟩, fun v hv => .inr (by simpa [inst, reads, opeRegs] using hv), fun v hv => by cases hv; simp; omega⟩
    · exact ⟨⟨rfl, rfl, hq⟩, hr, fun v hv => by rw [hw] at hv; cases hv⟩
  · obtain ⟨p, c1, s1, l, h1, _, rfl, rfl⟩ := incdecPost_ok h
    obtain ⟨g, hp⟩ := he.ptr rfl h1
    refine SRuns.step g hp ?_ (by simp; omega) hk hk2 (by simp [isCall, inst, load, hnc]) hf
    have hw : writes (inst .store (some p) (some (.reg (Sfx.get t.nbytes) (s1.reg + 1) t.isUnsigned)) none) = none := by cases p <;> first | rfl | exact absurd rfl (hp.1 _ _ _)
    have hr : ∀ v, v ∈ reads (inst .store (some p) (some (.reg (Sfx.get t.nbytes) (s1.reg + 1) t.isUnsigned)) none) → v ∈ opeRegs (some p) ∨ v = s1.reg + 1 := by
      intro v hv
      rw [reads_inst] at hv
      rcases hv with hv | hv | ⟨id, h1, rfl⟩
      · right; simpa [opeRegs] using hv
      · cases hv
      · cases h1; left; simp [opeRegs]
    have hq : RSpec.target (inst .store (some p) (some (.reg (Sfx.get t.nbytes) (s1.reg + 1) t.isUnsigned)) none) = none := by cases p <;> rfl
    intro x hx
    simp only [List.mem_cons, List.not_mem_nil, or_false] at hx
    rcases hx with rfl | rfl | rfl | rfl
    · exact ⟨⟨rfl, rfl, rfl⟩, fun v hv => .inl (by simpa [load, inst, reads, opeRegs] using hv), fun v hv => by cases hv; simp; omega⟩
    · exact ⟨⟨rfl, rfl, rfl⟩, fun v hv => .inr (by simpa [load, inst, reads, opeRegs] using hv), fun v hv => by cases hv; simp; omega⟩
    · exact ⟨⟨ho, rfl, rfl⟩, fun v hv => .inr (by simpa [inst, reads, opeRegs] using hv), fun v hv => by cases hv; simp; omega⟩
    · exact ⟨⟨rfl, rfl, hq⟩, hr, fun v hv => by rw [hw] at hv; cases hv⟩

theorem assign_runs {kl kr k : Nat} {pr : Bool} {l r : G} (hl : GRuns kl true l) (hr : GRuns kr pr r) (h1 : kr ≤ k) (h2 : 1 + kl ≤ k) {s s' : GState} {c : List Immc}
    (h : assignCode l r s = .ok ((), c, s')) (hf : K.q = true → Piece K.val s c s') : SRuns K s c s' k := by
  obtain ⟨sf, id, us, c1, s1, p, c2, s2, g1, g2, rfl, rfl⟩ := assignCode_ok h
  obtain ⟨r2, hp⟩ := hl.ptr rfl g2
  rw [← List.append_assoc] at hf ⊢
  refine (SRuns.of (((hr.reg g1).seq (k := k) r2 h1 h2).use ?_ ?_) hf).to rfl rfl (Nat.le_refl _)
  · cases p <;> first | exact absurd rfl (hp.1 _ _ _) | simp [inst, reads, opeRegs]
  · cases p <;> first | exact absurd rfl (hp.1 _ _ _) | rfl

/-- only at the end a call may have no destination -/
theorem effect_suits {e : SExpr} (hu : usableEff K.c K.L e = true) {s s' : GState} {c : List Immc} (h : (expr e).code s = .ok ((), c, s')) : Suits K s c s' := by
  by_cases hc : ∃ t f as, e = .call t f as
  · obtain ⟨t, f, as, rfl⟩ := hc
    simp only [usableEff, Bool.and_eq_true] at hu
    obtain ⟨⟨⟨h1, h3⟩, h4⟩, h5⟩ := hu
    have hf := expr_fit (K := K.val) f h4
    have hg := args_fit (K := K.val) as h5
    simp only [expr] at h
    have h' : callCode t (expr f) (args as) s = .ok ((), c, s') := h
    cases hv : t.isVoid
    · exact .of (callCode_fit (K := K.val) hf hg h1 (fun _ => hv) (fun hI => callee_ptr (K := K.val) h3 hI) h')
    · intro hI
      have k1 := callCode_fit (K := K.any) (t := t) (expr_fit (K := K.any) f h4) (args_fit (K := K.any) as h5) h1 nofun (fun hI => callee_ptr (K := K.any) h3 hI) h' hI
      refine ⟨⟨k1.1, ?_⟩, k1.2⟩
      obtain ⟨c1, s1, p, c2, s2, d, c3, s3, g1, g2, _, rfl, ⟨-, rfl, rfl⟩ | ⟨h4, -⟩⟩ := callCode_ok h'
      · have e1 := argsCode_fit hg g1 hI
        have e2 := (hf.ptr g2).1 e1.2
        intro a x b e hx y hy z hz v u hw hm
        have : ∀ y ∈ inst .prep none (some (intOpe .none (args as).length)) none :: (c1 ++ c2), isVoidCall y = false := by
          intro y hy
          rcases List.mem_cons.1 hy with rfl | hy
          · rfl
          · exact ((List.mem_append.1 hy).elim (e1.1 y) (e2.1 y)).noVoid
        have e' : (inst .prep none (some (intOpe .none (args as).length)) none :: (c1 ++ c2)) ++ callEnd none p (args as).length = a ++ x :: b := by simpa using e
        rcases append_split e' with ⟨q', e'', rfl⟩ | ⟨p', rfl, e''⟩
        · rw [this x (by simp [e''])] at hx; cases hx
        · simp only [callEnd] at e''
          cases p' with
          | nil =>
            cases e''
            obtain rfl := List.mem_singleton.1 hz
            cases hm
          | cons _ p' =>
            cases p' with
            | nil => cases e''; cases hz
            | cons _ _ => simp at e''
      · rw [hv] at h4; cases h4
  · refine .of ((expr_fit (K := K.val) e ?_).code h)
    cases e <;> first | exact hu | exact absurd ⟨_, _, _, rfl⟩ hc

/-- the code of an expression whose value is not used -/
theorem effect_runs {e : SExpr} {k : Nat} (hs : safe none e = true) (he : effect e = true) (hk : needEffect e ≤ k) (hu : K.q = true → usableEff K.c K.L e = true) {s s' : GState} {c : List Immc}
    (h : (expr e).code s = .ok ((), c, s')) : SRuns K s c s' k := by
  have plain : clean e = true → need e ≤ k → SRuns K s c s' k := fun hc hn =>
    (SRuns.make ((expr_runs e none hs hc).code h) fun q => effect_suits (hu q) h).to rfl rfl hn
  have other : (∀ t f as, e ≠ .call t f as) → K.q = true → Piece K.val s c s' := fun hn q => by
    refine (expr_fit (K := K.val) e ?_).code h
    have := hu q
    cases e <;> first | exact this | exact absurd rfl (hn _ _ _)
  cases e with
  | bin op t l r =>
    simp only [effect, Bool.and_eq_true] at he
    by_cases ha : op = .assign
    · subst ha
      simp only [needEffect, if_true] at hk
      simp only [safe, Bool.and_eq_true] at hs
      have h1 := expr_runs l none hs.1.2 he.1
      rw [hs.1.1] at h1
      rw [expr] at h
      exact assign_runs h1 (expr_runs r none hs.2 he.2) (by omega) (by omega) h (other nofun)
    · simp only [needEffect, if_neg ha] at hk
      exact plain (by simp [clean, ha, he]) hk
  | un op t e =>
    simp only [effect] at he
    by_cases hc : changes op = true
    · simp only [needEffect, hc, if_true] at hk
      cases op <;> first | cases hc | skip
      all_goals
        simp only [safe, Bool.and_eq_true] at hs
        have h1 := expr_runs e none hs.2 he
        rw [hs.1] at h1
        rw [expr] at h
        exact incdec_runs rfl h1 (by omega) (by omega) h (hf := other nofun)
    · simp only [needEffect, hc] at hk
      exact plain (by simp [clean, hc, he]) (by simpa [need] using hk)
  | _ => exact plain he hk

theorem val_jmp {e : SExpr} {k : Nat} (hs : safe none e = true) (he : tidyVal k e = true) (hu : K.q = true → usable K.c K.L e = true) {b : Bool} {s s' : GState} {j : Name → Immc} {c : List Immc}
    (h : (expr e).jmp b s = .ok (j, c, s')) (n : Name) : SRuns K s (c ++ [j n]) s' k := by
  simp only [tidyVal, Bool.and_eq_true, decide_eq_true_eq] at he
  obtain ⟨R, r, hj⟩ := (expr_runs e none hs he.1).jmp h
  refine (SRuns.of (r.jmp hj n) fun q => ?_).to rfl rfl he.2
  have f := (expr_fit (K := K.val) e (hu q)).jmp h
  exact f.1.add (by simp; exact f.2 n) rfl

/-- jumps that read the registers at hand -/
theorem Runs.jumps {s s1 : GState} {c : List Immc} {R : List Int} {k : Nat} : ∀ {js : List Immc}, Runs s c s1 R k →
    (∀ x ∈ js, x.isJump = true ∧ (writes x = none ∧ RSpec.target x ≠ none) ∧ ∀ v ∈ reads x, v ∈ R) → Runs s (c ++ js) s1 R k
  | [], h, _ => by simpa using h
  | x :: js, h, hj => by
    obtain ⟨h1, h2, h3⟩ := hj x (by simp)
    have : Runs s (c ++ [x]) s1 R k := h.add (Int.le_refl _) (Nat.le_refl _) h3 (by simp [h2.1]) (by simp [h1]) (fun _ => h2) h.nd
      (fun v hv => ⟨.inl hv, fun hs => by have := hs.2.2; simp [h1] at this⟩) (by simp [h2.1]) (by simp [h2.1])
    have := this.jumps (js := js) fun y hy => hj y (by simp [hy])
    simpa using this

theorem switch_runs {e : SExpr} {k : Nat} (hs : safe none e = true) (he : tidyVal k e = true) (hu : K.q = true → usable K.c K.L e = true) {b : GM Unit} (hb : ∀ {s c s'}, b s = .ok ((), c, s') → SRuns K s c s' k)
    {s s' : GState} {c : List Immc} (h : switchCode (expr e) b s = .ok ((), c, s')) : SRuns K s c s' k := by
  obtain ⟨o, c1, s1, c2, s2, h1, h2, rfl, rfl⟩ := switchCode_ok h
  simp only [tidyVal, Bool.and_eq_true, decide_eq_true_eq] at he
  have r1 := ((expr_runs e none hs he.1).reg h1).jumps (js := caseJumps o (s2.cases.getD [])) (by
    intro x hx
    simp only [caseJumps, List.mem_map] at hx
    obtain ⟨⟨id, l⟩, _, rfl⟩ := hx
    refine ⟨rfl, ⟨rfl, nofun⟩, fun v hv => ?_⟩
    rcases reads_inst.1 hv with hv | hv | ⟨_, hv, _⟩
    · exact hv
    · cases hv
    · cases hv)
  have e1 := (SRuns.of (K := K) r1 fun q => by
    have f := (expr_fit (K := K.val) e (hu q)).reg h1
    refine f.1.add ?_ rfl
    intro x hx
    simp only [caseJumps, List.mem_map] at hx
    obtain ⟨⟨id, l⟩, _, rfl⟩ := hx
    simp [Fit, inst, fitInst, isLabel, labelOpe, f.2, isVal, isInt]).to (k' := k) rfl rfl he.2
  have e2 := e1.seq (SRuns.one s1 k (x := jump (if s2.dflt > 0 then s2.dflt else s1.lab + 1)) rfl rfl)
  have e3 := (e2.seq ((hb h2).to (t := s1) rfl rfl (Nat.le_refl _))).seq (SRuns.one s2 k (x := labelAt (s1.lab + 1)) rfl rfl)
  simpa using e3.to (t := s) (t' := { s2 with cases := s1.cases, dflt := s1.dflt, brk := s1.brk }) rfl rfl (Nat.le_refl _)

theorem ite_runs {e : SExpr} {k : Nat} (hs : safe none e = true) (he : tidyVal k e = true) (hu : K.q = true → usable K.c K.L e = true) {b : GM Unit} (hb : ∀ {s c s'}, b s = .ok ((), c, s') → SRuns K s c s' k)
    {s s' : GState} {c : List Immc} (h : iteCode (expr e) b s = .ok ((), c, s')) : SRuns K s c s' k := by
  obtain ⟨j, c1, s1, c2, h1, h2, h3⟩ := iteCode_ok h
  rcases h3 with ⟨n, _, rfl⟩ | ⟨_, rfl⟩
  · simpa using ((val_jmp hs he hu h1 n).seq (hb h2)).to (t := s) (t' := s') rfl rfl (Nat.le_refl _)
  · simpa using ((val_jmp hs he hu h1 (labelName (s.lab + 1))).seq ((hb h2).seq (SRuns.one s' k (x := labelAt (s.lab + 1)) rfl rfl))).to (t := s) (t' := s') rfl rfl (Nat.le_refl _)

theorem itee_runs {e : SExpr} {k : Nat} (hs : safe none e = true) (he : tidyVal k e = true) (hu : K.q = true → usable K.c K.L e = true) {b d : GM Unit} (hb : ∀ {s c s'}, b s = .ok ((), c, s') → SRuns K s c s' k)
    (hd : ∀ {s c s'}, d s = .ok ((), c, s') → SRuns K s c s' k) {s s' : GState} {c : List Immc} (h : iteeCode (expr e) b d s = .ok ((), c, s')) : SRuns K s c s' k := by
  obtain ⟨j, c1, s1, c2, s2, c3, h1, h2, h3, h4⟩ := iteeCode_ok h
  have e1 := (val_jmp hs he hu h1 (labelName (s.lab + 1))).seq (hb h2)
  have e2 := (SRuns.one s2 k (x := labelAt (s.lab + 1)) rfl rfl).seq (hd h3)
  rcases h4 with ⟨n, _, rfl⟩ | ⟨_, rfl⟩
  · simpa using ((e1.seq (SRuns.one s2 k (x := inst .jmp (some (.label n)) none none) rfl rfl)).seq e2).to (t := s) (t' := s') rfl rfl (Nat.le_refl _)
  · simpa using (((e1.seq (SRuns.one s2 k (x := jump (s.lab + 1 + 1)) rfl rfl)).seq e2).seq (SRuns.one s' k (x := labelAt (s.lab + 1 + 1)) rfl rfl)).to (t := s) (t' := s') rfl rfl (Nat.le_refl _)

theorem while_runs {e : SExpr} {k : Nat} (hs : safe none e = true) (he : tidyVal k e = true) (hu : K.q = true → usable K.c K.L e = true) {b : GM Unit} (hb : ∀ {s c s'}, b s = .ok ((), c, s') → SRuns K s c s' k)
    {s s' : GState} {c : List Immc} (h : whileCode (expr e) b s = .ok ((), c, s')) : SRuns K s c s' k := by
  obtain ⟨j, c1, s1, c2, s2, h1, h2, rfl, rfl⟩ := whileCode_ok h
  have e1 := (val_jmp hs he hu h1 (labelName (s.lab + 1 + 1))).seq ((hb h2).to (t := s1) rfl rfl (Nat.le_refl _))
  have e2 := (e1.seq (SRuns.one s2 k (x := jump (s.lab + 1)) rfl rfl)).seq (SRuns.one s2 k (x := labelAt (s.lab + 1 + 1)) rfl rfl)
  simpa using (SRuns.one s k (x := labelAt (s.lab + 1)) rfl rfl).seq (e2.to (t := s) (t' := { s2 with cont := s1.cont, brk := s1.brk }) rfl rfl (Nat.le_refl _))

theorem cond_runs {st : SStmt} {k : Nat} (hs : simple st = true) (he : tidyCond k st = true) (hu : K.q = true → usableCond K.c K.L st = true) {n : Name} {s s' : GState} {c : List Immc} (h : forCond st n s = .ok ((), c, s')) :
    SRuns K s c s' k := by
  rcases forCond_ok h with ⟨e, j, c1, rfl, h1, rfl⟩ | ⟨_, rfl, rfl⟩
  · exact val_jmp hs he hu h1 n
  · exact .refl _ _

theorem for_runs {k : Nat} {i n b : GM Unit} {st : SStmt} (hs : simple st = true) (he : tidyCond k st = true) (hu : K.q = true → usableCond K.c K.L st = true) (hi : ∀ {s c s'}, i s = .ok ((), c, s') → SRuns K s c s' k)
    (hn : ∀ {s c s'}, n s = .ok ((), c, s') → SRuns K s c s' k) (hb : ∀ {s c s'}, b s = .ok ((), c, s') → SRuns K s c s' k)
    {s s' : GState} {c : List Immc} (h : forCode i (forCond st) n b s = .ok ((), c, s')) : SRuns K s c s' k := by
  obtain ⟨c1, s1, c2, s2, c3, s3, c4, h1, h2, h3, h4, rfl⟩ := forCode_ok h
  have e1 := (((hi h1).to (t := s) rfl rfl (Nat.le_refl _)).seq (SRuns.one s1 k (x := labelAt (s.lab + 1)) rfl rfl)).seq (cond_runs hs he hu h2)
  have e2 := (e1.seq ((hb h3).to (t := s2) rfl rfl (Nat.le_refl _))).seq (SRuns.one s3 k (x := labelAt (s.lab + 1 + 1)) rfl rfl)
  have e3 := ((e2.seq ((hn h4).to (t := s3) rfl rfl (Nat.le_refl _))).seq (SRuns.one s' k (x := jump (s.lab + 1)) rfl rfl)).seq (SRuns.one s' k (x := labelAt (s.lab + 1 + 1 + 1)) rfl rfl)
  simpa using e3

theorem localScalar_runs {k kg : Nat} {p : Bool} {t : DType} {g : G} (hg : GRuns kg p g) (hk : kg ≤ k) (hf : K.q = true → GFit K.val g) {s s' : GState} {c : List Immc} (h : localScalar t g s = .ok ((), c, s')) :
    SRuns K s c s' k := by
  obtain ⟨o, c1, s1, h1, rfl, rfl⟩ := localScalar_ok h
  exact (SRuns.of ((hg.int h1).use (x := inst .store (some (.mem s.initOff)) (some o) none) (by simp [inst, reads, opeRegs]) rfl) fun q => by
    have f := (hf q).int h1
    exact f.1.add (by simp [Fit, inst, fitInst, isPlace, isMem, f.2]) rfl).to rfl rfl hk

theorem arrayInit_runs {k : Nat} {t : DType} : ∀ {n : Nat} {gs : List (DType → GM Unit)}
    (_ : ∀ g ∈ gs, ∀ {t s c s'}, g t s = .ok ((), c, s') → SRuns K s c s' k) {s s' : GState} {c : List Immc}, arrayInit t n gs s = .ok ((), c, s') → SRuns K s c s' k
  | 0, _, _, s, s', c, h => by
    simp only [arrayInit] at h
    gm at h
    obtain ⟨rfl, rfl⟩ := h
    exact .refl s k
  | n + 1, [], _, s, s', c, h => by simp [arrayInit, ub_ok] at h
  | n + 1, g :: gs, hg, s, s', c, h => by
    obtain ⟨c1, s1, c2, h1, h2, rfl⟩ := arrayInit_cons h
    exact SRuns.seq (hg g (by simp) h1) (arrayInit_runs (fun g' hg' => hg g' (by simp [hg'])) h2)

theorem localMembers_runs {k : Nat} {off : Int} : ∀ {ms : List (DType × Nat)} {gs : List (DType → GM Unit)}
    (_ : ∀ g ∈ gs, ∀ {t s c s'}, g t s = .ok ((), c, s') → SRuns K s c s' k) {s s' : GState} {c : List Immc}, localMembers off ms gs s = .ok ((), c, s') → SRuns K s c s' k
  | [], _, _, s, s', c, h => by
    simp only [localMembers] at h
    gm at h
    obtain ⟨rfl, rfl⟩ := h
    exact .refl s k
  | _ :: _, [], _, s, s', c, h => by simp [localMembers, ub_ok] at h
  | (t, o) :: ms, g :: gs, hg, s, s', c, h => by
    obtain ⟨c1, s1, c2, h1, h2, rfl⟩ := localMembers_cons h
    exact SRuns.seq ((hg g (by simp) h1).to (t := s) rfl rfl (Nat.le_refl _)) (localMembers_runs (fun g' hg' => hg g' (by simp [hg'])) h2)

theorem localStruct_runs {k : Nat} {t : DType} {gs : List (DType → GM Unit)} (hg : ∀ g ∈ gs, ∀ {t s c s'}, g t s = .ok ((), c, s') → SRuns K s c s' k)
    {s s' : GState} {c : List Immc} (h : localStruct t gs s = .ok ((), c, s')) : SRuns K s c s' k := by
  obtain ⟨ms, b, a, _, h2⟩ := localStruct_ok h
  exact localMembers_runs hg h2

mutual
theorem localInit_runs (k : Nat) : ∀ (i : SInit), safeInit i = true → tidyInit k i = true → (K.q = true → usableInit K.c K.L i = true) → ∀ {t : DType} {s s' : GState} {c : List Immc}, localInit i t s = .ok ((), c, s') → SRuns K s c s' k
  | .expr e, hs, ht, hu, t, s, s', c, h => by
    simp only [localInit] at h
    simp only [safeInit] at hs
    simp only [tidyInit, Bool.and_eq_true, decide_eq_true_eq] at ht
    split at h
    · exact localScalar_runs (expr_runs e none hs ht.1) ht.2 (fun q => expr_fit (K := K.val) e (by simp only [usableInit] at hu; exact hu q)) h
    · simp [ub_ok] at h
  | .str u b, _, _, _, t, s, s', c, h => by
    simp only [localInit] at h
    split at h
    · rw [localString_run, Out.ok.injEq, Prod.mk.injEq, Prod.mk.injEq] at h
      obtain ⟨_, rfl, rfl⟩ := h
      exact (SRuns.one s k (x := inst .str (some (.mem s.initOff)) (some (.str b)) none) rfl rfl).to rfl rfl (Nat.le_refl _)
    · simp [ub_ok] at h
  | .list is, hs, ht, hu, t, s, s', c, h => by
    simp only [localInit] at h
    simp only [safeInit] at hs
    simp only [tidyInit] at ht
    split at h
    · exact arrayInit_runs (localInits_runs k is hs ht (by simpa only [usableInit] using hu)) h
    · exact localStruct_runs (localInits_runs k is hs ht (by simpa only [usableInit] using hu)) h
    · exact localStruct_runs (localInits_runs k is hs ht (by simpa only [usableInit] using hu)) h
    · simp [ub_ok] at h
theorem localInits_runs (k : Nat) : ∀ (is : SInits), safeInits is = true → tidyInits k is = true → (K.q = true → usableInits K.c K.L is = true) → ∀ g ∈ localInits is, ∀ {t : DType} {s : GState} {c : List Immc} {s' : GState},
    g t s = .ok ((), c, s') → SRuns K s c s' k
  | .nil, _, _, _, g, hg, _, _, _, _, _ => by simp [localInits] at hg
  | .cons i is, hs, ht, hu, g, hg, t, s, c, s', h => by
    simp only [localInits, List.mem_cons] at hg
    simp only [safeInits, Bool.and_eq_true] at hs
    simp only [tidyInits, Bool.and_eq_true] at ht
    simp only [usableInits, Bool.and_eq_true] at hu
    rcases hg with rfl | hg
    · exact localInit_runs k i hs.1 ht.1 (fun q => (hu q).1) h
    · exact localInits_runs k is hs.2 ht.2 (fun q => (hu q).2) g hg h
end

theorem I.define {s : GState} {n : Str} {y : GSym} (h : I K s) (hn : y.loc ≠ .label → n ∈ K.L) {t : GState} (ht : t.syms = define n y s.syms) : I K t := by
  rcases h with h | h
  · exact .inl h
  · refine .inr fun sc hsc p hp hl => ?_
    rw [ht] at hsc
    cases hs : s.syms with
    | nil =>
      simp only [hs, Gen.define, List.mem_singleton] at hsc
      subst hsc
      simp only [List.mem_singleton] at hp
      subst hp; exact hn hl
    | cons l ls =>
      simp only [hs, Gen.define, List.mem_cons] at hsc
      rcases hsc with rfl | hsc
      · rcases List.mem_cons.1 hp with rfl | hp
        · exact hn hl
        · exact h l (by simp [hs]) p hp hl
      · exact h sc (by simp [hs, hsc]) p hp hl

theorem I.declare {s : GState} {d : SDecl} {n : Str} (hw : d.who = .ident n) (hl : listed K.L d = true) (h : I K s) : I K (s.declare n d.dt) := by
  simp only [listed, hw, Bool.or_eq_true, Bool.not_eq_true', List.contains_iff_mem] at hl
  unfold GState.declare
  split
  · split
    · rename_i ho
      exact h.define (fun _ => by rw [ho] at hl; simpa using hl) rfl
    · exact h.define (fun h => absurd rfl h) rfl
  · exact h

theorem I.enter {s : GState} (h : I K s) {t : GState} (ht : t.syms = [] :: s.syms) : I K t := by
  rcases h with h | h
  · exact .inl h
  · refine .inr fun sc hsc p hp => ?_
    rw [ht] at hsc
    rcases List.mem_cons.1 hsc with rfl | hsc
    · cases hp
    · exact h sc hsc p hp

theorem I.leave {s : GState} (h : I K s) {t : GState} (ht : t.syms = s.syms.tail) : I K t := by
  rcases h with h | h
  · exact .inl h
  · refine .inr fun sc hsc p hp => ?_
    rw [ht] at hsc
    exact h sc (List.mem_of_mem_tail hsc) p hp

theorem localDecl_runs {k : Nat} {d : SDecl} (hd : d.init.all safeInit = true) (ht : d.init.all (tidyInit k) = true)
    (hu : K.q = true → (listed K.L d && d.init.all (usableInit K.c K.L)) = true) {s s' : GState} {c : List Immc}
    (h : localDecl d s = .ok ((), c, s')) : SRuns K s c s' k := by
  obtain ⟨n, hw, ⟨_, rfl, rfl⟩ | ⟨i, y, s1, e, _, h1, rfl⟩⟩ := localDecl_ok h
  all_goals simp only [Bool.and_eq_true] at hu
  · exact (SRuns.refl s k).to rfl (declare_reg s n _) (Nat.le_refl _) (hi' := fun q h => h.declare hw (hu q).1)
  · exact (localInit_runs k i (by simpa [e] using hd) (by simpa [e] using ht) (fun q => by simpa [e] using (hu q).2) h1).to (declare_reg s n _).symm rfl (Nat.le_refl _) (hi := fun q h => h.declare hw (hu q).1)

theorem localDecls_runs {k : Nat} : ∀ {ds : List SDecl}, (ds.all fun d => d.init.all safeInit) = true → (ds.all fun d => d.init.all (tidyInit k)) = true →
    (K.q = true → (ds.all fun d => listed K.L d && d.init.all (usableInit K.c K.L)) = true) →
    ∀ {s s' : GState} {c : List Immc}, localDecls ds s = .ok ((), c, s') → SRuns K s c s' k
  | [], _, _, _, s, s', c, h => by
    simp only [localDecls] at h
    gm at h
    obtain ⟨rfl, rfl⟩ := h
    exact .refl s k
  | d :: ds, hd, ht, hu, s, s', c, h => by
    obtain ⟨c1, s1, c2, h1, h2, rfl⟩ := localDecls_cons h
    simp only [List.all_cons, Bool.and_eq_true] at hd ht hu
    exact SRuns.seq (localDecl_runs hd.1 ht.1 (by simpa using fun q => (hu q).1) h1) (localDecls_runs hd.2 ht.2 (by simpa using fun q => (hu q).2) h2)

mutual
theorem stmt_runs (k : Nat) : ∀ (b : SStmt), sound b = true → tidy k b = true → (K.q = true → usableStmt K.c K.L b = true) → ∀ {s s' : GState} {c : List Immc}, stmt b s = .ok ((), c, s') → SRuns K s c s' k
  | .cmpd is, hs, ht, hu, s, s', c, h => by
    obtain ⟨s1, h1, rfl⟩ := stmt_cmpd h
    simp only [sound] at hs
    simp only [tidy] at ht
    simp only [usableStmt, Bool.and_eq_true] at hu
    exact (items_runs k is hs ht hu h1).to rfl rfl (Nat.le_refl _) (fun _ h => h.enter rfl) (fun _ h => h.leave rfl)
  | .case v b, hs, ht, hu, s, s', c, h => by
    obtain ⟨cs, t, l, c1, hc, rfl, h1, rfl⟩ := stmt_case h
    simp only [sound] at hs
    simp only [tidy] at ht
    simp only [usableStmt, Bool.and_eq_true] at hu
    exact (SRuns.one s k (x := labelAt (s.lab + 1)) rfl rfl).seq ((stmt_runs k b hs ht hu h1).to rfl rfl (Nat.le_refl _))
  | .dflt b, hs, ht, hu, s, s', c, h => by
    obtain ⟨c1, h1, rfl⟩ := stmt_dflt h
    simp only [sound] at hs
    simp only [tidy] at ht
    simp only [usableStmt, Bool.and_eq_true] at hu
    exact (SRuns.one s k (x := labelAt (s.lab + 1)) rfl rfl).seq ((stmt_runs k b hs ht hu h1).to rfl rfl (Nat.le_refl _))
  | .cont, _, _, _, s, s', c, h => by
    simp only [stmt] at h
    gm at h
    obtain ⟨rfl, rfl⟩ := h
    exact SRuns.one s k rfl rfl
  | .brk, _, _, _, s, s', c, h => by
    simp only [stmt] at h
    gm at h
    obtain ⟨rfl, rfl⟩ := h
    exact SRuns.one s k rfl rfl
  | .ret none, _, _, _, s, s', c, h => by
    simp only [stmt, Option.map_none] at h
    obtain ⟨rfl, rfl⟩ := returnCode_none h
    exact SRuns.one _ k rfl rfl
  | .ret (some e), hs, ht, hu, s, s', c, h => by
    simp only [stmt, Option.map_some] at h
    simp only [sound] at hs
    simp only [tidy, tidyVal, Bool.and_eq_true, decide_eq_true_eq] at ht
    simp only [usableStmt, Bool.and_eq_true] at hu
    obtain ⟨o, c1, h1, rfl⟩ := returnCode_some h
    have r := (((expr_runs e none hs ht.1).int h1).use (x := inst .stret none (some o) none) (by simp [inst, reads, opeRegs]) rfl).skip (x := jump s'.ret) rfl rfl
    have e := (SRuns.of (K := K) r fun q => by
      have f := (expr_fit (K := K.val) e (hu q)).int h1
      rw [List.append_assoc]
      exact f.1.add (by simp [Fit, inst, fitInst, jump, isLabel, labelOpe, f.2]) rfl).to (t := s) (t' := s') rfl rfl ht.2
    simpa using e
  | .expr e, hs, ht, hu, s, s', c, h => by
    simp only [stmt] at h
    simp only [sound] at hs
    simp only [tidy, tidyEff, Bool.and_eq_true, decide_eq_true_eq] at ht
    simp only [usableStmt, Bool.and_eq_true] at hu
    gm at h
    exact (effect_runs hs ht.1 ht.2 hu h).to rfl rfl (Nat.le_refl _)
  | .null, _, _, _, s, s', c, h => by
    simp only [stmt] at h
    gm at h
    obtain ⟨rfl, rfl⟩ := h
    exact .refl s k
  | .ite g t, hs, ht, hu, s, s', c, h => by
    simp only [stmt] at h
    simp only [sound, Bool.and_eq_true] at hs
    simp only [tidy, Bool.and_eq_true] at ht
    simp only [usableStmt, Bool.and_eq_true] at hu
    exact ite_runs hs.1 ht.1 (fun q => (hu q).1) (stmt_runs k t hs.2 ht.2 fun q => (hu q).2) h
  | .itee g t e, hs, ht, hu, s, s', c, h => by
    simp only [stmt] at h
    simp only [sound, Bool.and_eq_true] at hs
    simp only [tidy, Bool.and_eq_true] at ht
    simp only [usableStmt, Bool.and_eq_true] at hu
    exact itee_runs hs.1.1 ht.1.1 (fun q => (hu q).1.1) (stmt_runs k t hs.1.2 ht.1.2 fun q => (hu q).1.2) (stmt_runs k e hs.2 ht.2 fun q => (hu q).2) h
  | .switch g b, hs, ht, hu, s, s', c, h => by
    simp only [stmt] at h
    simp only [sound, Bool.and_eq_true] at hs
    simp only [tidy, Bool.and_eq_true] at ht
    simp only [usableStmt, Bool.and_eq_true] at hu
    exact switch_runs hs.1 ht.1 (fun q => (hu q).1) (stmt_runs k b hs.2 ht.2 fun q => (hu q).2) h
  | .while g b, hs, ht, hu, s, s', c, h => by
    simp only [stmt] at h
    simp only [sound, Bool.and_eq_true] at hs
    simp only [tidy, Bool.and_eq_true] at ht
    simp only [usableStmt, Bool.and_eq_true] at hu
    exact while_runs hs.1 ht.1 (fun q => (hu q).1) (stmt_runs k b hs.2 ht.2 fun q => (hu q).2) h
  | .for i g n b, hs, ht, hu, s, s', c, h => by
    obtain ⟨s1, h1, rfl⟩ := stmt_for h
    simp only [sound, Bool.and_eq_true] at hs
    simp only [tidy, Bool.and_eq_true] at ht
    simp only [usableStmt, Bool.and_eq_true] at hu
    obtain ⟨⟨⟨⟨hs1, -⟩, hs3⟩, hs4⟩, hs5⟩ := hs
    obtain ⟨⟨⟨ht1, ht2⟩, ht3⟩, ht4⟩ := ht
    have hn : sound n = true := by cases n <;> simp_all [simple, sound]
    exact (for_runs hs3 ht2 (fun q => (hu q).1.1.2) (item_runs k i hs1 ht1 fun q => (hu q).1.1.1) (stmt_runs k n hn ht3 fun q => (hu q).1.2) (stmt_runs k b hs5 ht4 fun q => (hu q).2) h1).to rfl rfl (Nat.le_refl _)
      (fun _ h => h.enter rfl) (fun _ h => h.leave rfl)
theorem item_runs (k : Nat) : ∀ (i : SItem), soundItem i = true → tidyItem k i = true → (K.q = true → usableItem K.c K.L i = true) → ∀ {s s' : GState} {c : List Immc}, item i s = .ok ((), c, s') → SRuns K s c s' k
  | .stmt b, hs, ht, hu, s, s', c, h => by
    simp only [item] at h
    simp only [soundItem] at hs
    simp only [tidyItem] at ht
    simp only [usableItem] at hu
    exact stmt_runs k b hs ht hu h
  | .decls ds, hs, ht, hu, s, s', c, h => by
    simp only [item] at h
    simp only [soundItem] at hs
    simp only [tidyItem] at ht
    simp only [usableItem] at hu
    exact localDecls_runs hs ht hu h
  | .tag n t, _, _, _, s, s', c, h => by
    simp only [item] at h
    obtain ⟨rfl, tg, rfl⟩ := tagDecl_ok h
    exact (SRuns.refl s k).to rfl rfl (Nat.le_refl _)
theorem items_runs (k : Nat) : ∀ (is : SItems), soundAll is = true → tidyAll k is = true → (K.q = true → usableAll K.c K.L is = true) → ∀ {s s' : GState} {c : List Immc}, items is s = .ok ((), c, s') → SRuns K s c s' k
  | .nil, _, _, _, s, s', c, h => by
    simp only [items] at h
    gm at h
    obtain ⟨rfl, rfl⟩ := h
    exact .refl s k
  | .cons i is, hs, ht, hu, s, s', c, h => by
    obtain ⟨c1, s1, c2, h1, h2, rfl⟩ := items_cons h
    simp only [soundAll, Bool.and_eq_true] at hs
    simp only [tidyAll, Bool.and_eq_true] at ht
    simp only [usableAll, Bool.and_eq_true] at hu
    exact (item_runs k i hs.1 ht.1 (fun q => (hu q).1) h1).seq (items_runs k is hs.2 ht.2 (fun q => (hu q).2) h2)
end

theorem paramsCode_runs {k : Nat} : ∀ {ps : Params} {i : Nat} {s s' : GState} {c : List Immc}, (K.q = true → ∀ n ∈ paramNames ps, n ∈ K.L) → paramsCode i ps s = .ok ((), c, s') → SRuns K s c s' k
  | .nil, i, s, s', c, _, h => by
    simp only [paramsCode] at h
    gm at h
    obtain ⟨rfl, rfl⟩ := h
    exact .refl s k
  | .cons n t ps, i, s, s', c, hp, h => by
    obtain ⟨m, c1, rfl, _, h1, rfl⟩ := paramsCode_cons h
    exact (SRuns.one s k rfl rfl (hf := fun _ => by simp [Fit, inst, fitInst, isArg])).seq ((paramsCode_runs (fun q n hn => hp q n (by simp [paramNames, hn])) h1).to rfl rfl (Nat.le_refl _)
      (hi := fun q h => h.define (fun _ => hp q m (by simp [paramNames])) rfl))

/-- the code of a function -/
theorem funcCode_runs {k : Nat} {n : Str} {t : DType} {b : SItems} {s s' : GState} {code : List Immc} (h : funcCode n t b s = .ok ((), code, s'))
    (hs : soundAll b = true) (ht : tidyAll k b = true) (hu : K.q = true → ∀ ps rt, t = .func ps rt → (∀ n ∈ paramNames ps, n ∈ K.L) ∧ usableAll K.c K.L b = true) :
    ∃ s0 s2 : GState, s0 = s.inFunc n t ∧ SRuns K s0 code s2 k := by
  obtain ⟨name, ps, rt, pc, s1, bc, s2, h0, rfl, h1, h2, rfl, rfl⟩ := funcCode_ok h
  refine ⟨s.inFunc n (.func ps rt), s2, rfl, ?_⟩
  have e1 := (SRuns.one (K := K) (s.inFunc n (.func ps rt)) k (x := .label .function .global name) rfl rfl).seq (SRuns.one _ k (x := inst .enter none (some (intOpe .quad s2.mem)) none) rfl rfl)
  have e2 := ((e1.seq (paramsCode_runs (fun q => (hu q _ _ rfl).1) h1)).seq (items_runs k b hs ht (fun q => (hu q _ _ rfl).2) h2)).seq (SRuns.one s2 k (x := labelAt (s.lab + 1)) rfl rfl)
  simpa using e2.seq (SRuns.one s2 k (x := inst .leave none (some (intOpe .quad s2.mem)) none) rfl rfl)

end Tidy
end Umlcc
