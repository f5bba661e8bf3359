import Verif.Lemma.SimInit
import Verif.Lemma.SimProps
/-!
C37: initialisers of local objects.
-/
namespace Umlcc
namespace Gen
open IMach (Val St Env Mem sem)
open RSpec (run UniqueLabels)
open CSem (Ctx Describes safe ctxOf)
open Lay (Leaf leaves initialise packed tagsOf)

variable {W : Type}

/-- What C37 asks: running the code of the declaration of a local object with an initialiser evaluates the values of its parts in order and stores each at the
part's offset in the type, counted from the object's address, and does nothing else. `C` says what names mean, the declared one included; `C0` may leave more undefined. -/
def Initialises (C0 C : Ctx W) (E : Env W) (n : Str) (t : DType) (i : SInit) (s : GState) : Prop :=
  ∀ c s' pre post, localDecl ⟨.ident n, t, some i⟩ s = .ok ((), c, s') → Describes C E s' → UniqueLabels (pre ++ c ++ post) →
    ∀ a ls, C.addr n = some a → leaves (tagsOf s.tags) i t 0 = some ls → ∀ R m w out ret m' w', initialise C0 a ls (m, w) = some (m', w') →
      initialise C a ls (m, w) = some (m', w') ∧
      ∃ k R', run (sem E) (pre ++ c ++ post) ⟨pre.length, R, ⟨m, w, out, ret⟩⟩ k = some ⟨pre.length + c.length, R', ⟨m', w', out, ret⟩⟩ ∧
        ∀ r ≤ s.reg, R' r = R r

/-- C37 in full, for objects not declared before in the block -/
def C37_full : Prop := ∀ (W : Type) (C : Ctx W) (E : Env W) (s : GState) (n : Str) (t : DType) (i : SInit), C.lim = false → t.isObject = true →
  canDefine n s.syms = true → Initialises C C E n t i s

theorem initialise_full {C : Ctx W} {a : BitVec 64} : ∀ {ls : List (Nat × Leaf)} {σ σ' : Mem × W}, initialise C a ls σ = some σ' → initialise C.full a ls σ = some σ'
  | [], _, _, h => h
  | (o, .val t e) :: ls, σ, σ', h => by
    simp only [initialise, Option.bind_eq_bind, Option.bind_eq_some_iff] at h ⊢
    obtain ⟨q, h1, u, h2, x, h3, h4⟩ := h
    exact ⟨q, h1, u, h2, x, CSem.eval_full e h3, initialise_full h4⟩
  | (o, .bytes b) :: ls, σ, σ', h => by
    simp only [initialise] at h ⊢
    exact initialise_full h

/-- C37 for objects without padding at the end of array elements, if the values belong to the fragment of C34 (and the same evaluations are excluded). Missing: arrays
of structures with padding at the end, for which it fails. -/
theorem C37_initialises_partial (C : Ctx W) (E : Env W) (s : GState) (n : Str) (t : DType) (i : SInit) (ho : t.isObject = true) (hc : canDefine n s.syms = true)
    (hp : packed (tagsOf s.tags) i t = true) (hs : ∀ ls, leaves (tagsOf s.tags) i t 0 = some ls → ∀ o u e, (o, Leaf.val u e) ∈ ls → safe none e = true) :
    Initialises { C with lim := true } { C with lim := false } E n t i s := by
  intro c s' pre post h hd hu a ls ha hl R m w out ret m' w' hi
  refine ⟨initialise_full (C := { C with lim := true }) hi, ?_⟩
  obtain ⟨_, hn, ⟨h0, -⟩ | ⟨_, y, s1, e1, h1, h2, rfl⟩⟩ := localDecl_ok h
  · cases h0
  cases hn
  cases e1
  have hdecl : s.declare n t = { s with syms := define n ⟨.mem ((s.mem + t.nbytes + 3) / 4 * 4), t⟩ s.syms, mem := (s.mem + t.nbytes + 3) / 4 * 4 } := by
    simp only [GState.declare, hc, if_true, ho]
  simp only [hdecl] at h1 h2
  have hy : y = ⟨.mem ((s.mem + t.nbytes + 3) / 4 * 4), t⟩ := by
    have : ∀ scs : List (List (Str × GSym)), ∀ x, lookup n (define n x scs) = some x := by
      intro scs x
      cases scs <;> simp [define, lookup]
    rw [this] at h1
    exact (Option.some.inj h1).symm
  subst hy
  obtain ⟨⟨f, g⟩, -⟩ := Sim.localInit_sim (C := { C with lim := true }) (E := E) hu (K := ((s.mem + t.nbytes + 3) / 4 * 4 : Nat)) i (o := 0) h2 hl (by simp [Loc.off]) hp
  have hR : Sim.Rel { C with lim := true } E { s1 with initOff := -1 } := ⟨Sim.describes_lim hd true, rfl⟩
  obtain ⟨a', ha', -, hk⟩ := hd.addr n _ (show lookup n s1.syms = _ by rw [f.syms]; exact h1)
  have := hk _ rfl
  subst this
  simp only at ha'
  rw [show (C.addr n = some _) from ha'] at ha
  cases ha
  have hall : ls.all Sim.safeLeaf = true := by
    rw [List.all_eq_true]
    rintro ⟨o, l⟩ hm
    cases l with
    | val u e => exact hs ls hl o u e hm
    | bytes b => rfl
  obtain ⟨R', ⟨k, k1⟩, k2⟩ := g hall (hR.of (by rw [f.syms]) (by rw [f.tags])) (R := R) (st := ⟨m, w, out, ret⟩) (Sim.at_mid pre c post) hi
  exact ⟨k, R', k1, k2⟩

/-! #### samples -/

private def num (v : Int) : SExpr := .ilit .int ⟨.int, v⟩
private def chr (v : Int) : SExpr := .un .cast .char (num v)
private def es : List SInit → SInits := List.foldr .cons .nil

/-- `struct { int x; char c; }` -/
def tail3 : DType := .ustruct (.cons [120] .int 0 (.cons [99] .char 4 .nil)) 8 4
/-- `{ {1, 2}, {3, 4} }` -/
def tail3Init : SInit := .list (es [.list (es [.expr (num 1), .expr (chr 2)]), .list (es [.expr (num 3), .expr (chr 4)])])

/-- `struct { char c; int a[2]; char s[4]; } x[2] = {{1, {2, f()}, "abc"}, {4, {5, 6}, "d"}};` with a call of `int f(void)` -/
def mixed : DType := .ustruct (.cons [99] .char 0 (.cons [97] (.arr .int 2) 4 (.cons [115] (.arr .char 4) 12 .nil))) 16 4
def mixedInit : SInit := .list (es
  [.list (es [.expr (chr 1), .list (es [.expr (num 2), .expr (.call .int (.un .addr (.ptr (.func .nil .int)) (.ident (.func .nil .int) [102])) .nil)]), .str (.arr .char 4) [97, 98, 99, 0]]),
   .list (es [.expr (chr 4), .list (es [.expr (num 5), .expr (num 6)]), .str (.arr .char 4) [100, 0, 0, 0]])])

private def start : GState := { initial with syms := [[], [([102], ⟨.label, .func .nil .int⟩)]], mem := 6 }
private def env : Env Nat where
  bp := 4096
  glob _ := 8192
  call _ _ _ m w := some (m, w + 1, 77)
  ok _ := true
  args := []

/-- the hypotheses of `C37_initialises_partial` hold, the declaration is translated, and the parts are set to these bytes -/
example : (DType.arr mixed 2).isObject = true ∧ canDefine [120] start.syms = true ∧ packed (tagsOf start.tags) mixedInit (.arr mixed 2) = true ∧
    (∃ ls, leaves (tagsOf start.tags) mixedInit (.arr mixed 2) 0 = some ls ∧ ls.all Sim.safeLeaf = true ∧
      ∃ c s', localDecl ⟨.ident [120], .arr mixed 2, some mixedInit⟩ start = .ok ((), c, s') ∧ (ctxOf env s' true).addr [120] = some 4056 ∧
      (initialise (ctxOf env s' true) 4056 ls (fun _ => 255, 0)).map (fun σ => ((List.range 32).map fun k => (σ.1 (4056 + BitVec.ofNat 64 k)).toNat, σ.2)) =
        some ([1, 255, 255, 255, 2, 0, 0, 0, 77, 0, 0, 0, 97, 98, 99, 0, 4, 255, 255, 255, 5, 0, 0, 0, 6, 0, 0, 0, 100, 0, 0, 0], 1)) := by
  refine ⟨by decide, by decide, by decide, _, rfl, by decide, _, _, rfl, by decide +kernel, by decide +kernel⟩

/-- C37 fails: in `struct { int x; char c; } a[2] = {{1, 2}, {3, 4}};` the second element is stored right after the first one's last member, at offset 5 instead of 8. -/
theorem C37_tail_padding_violated : ¬ C37_full := by
  intro h
  have hg : ∃ c s', localDecl ⟨.ident [97], .arr tail3 2, some tail3Init⟩ initial = .ok ((), c, s') ∧ (defs c).Nodup ∧ (ctxOf env s' false).addr [97] = some 4080 ∧
      (run (sem env) c ⟨0, fun _ => IMach.noVal, ⟨fun _ => 0, 0, [], none⟩⟩ 4).map (fun m => (m.pc, m.st.mem 4088)) = some (c.length, 0) ∧
      (∃ ls, leaves (tagsOf initial.tags) tail3Init (.arr tail3 2) 0 = some ls ∧
        (initialise (ctxOf env s' false) 4080 ls (fun _ => 0, 0)).map (·.1 4088) = some 3) := by
    refine ⟨_, _, rfl, by decide, by decide +kernel, by decide +kernel, _, rfl, by decide +kernel⟩
  obtain ⟨c, s', hg, hn, ha, hr, ls, hl, hi⟩ := hg
  obtain ⟨⟨m', w'⟩, hi, hv⟩ := Option.map_eq_some_iff.1 hi
  obtain ⟨-, k, R', h1, -⟩ := h Nat (ctxOf env s' false) env initial [97] (.arr tail3 2) tail3Init rfl rfl rfl c s' [] [] hg (Sim.ctxOf_describes _ _ _)
    (by simpa using unique_of_nodup hn) 4080 ls ha hl (fun _ => IMach.noVal) _ 0 [] none m' w' hi
  simp only [List.nil_append, List.append_nil, List.length_nil, Nat.zero_add] at h1
  obtain ⟨b, hb, hbb⟩ := Option.map_eq_some_iff.1 hr
  simp only [Prod.mk.injEq] at hbb
  have := Sim.run_end h1 hb (by simp) (by rw [hbb.1]; simp)
  subst this
  have e := hbb.2
  simp only at e hv
  rw [hv] at e
  exact absurd e (by decide)

end Gen
end Umlcc
