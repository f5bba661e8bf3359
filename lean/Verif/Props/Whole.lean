import Verif.Props.StaticUnit
import Verif.Props.Translate
import Verif.Props.Usable
import Verif.Props.Lexer
import Verif.Lemma.Room
import Verif.Lemma.PlainMono
import Verif.Spec.Whole
/-! Property theorems C75: a part of C, described on the source alone, that always goes through the whole compiler and comes out right. -/
namespace Umlcc
namespace Whole
open Syn LSpec
open X86 (Compiled)

/-- the text `src` is made of the lexemes of the translation unit `xs`, separated by white space -/
structure Spells (src : List UInt8) (xs : List Ext) : Prop where
  text : ∃ lead ls, src = layout lead ls ∧ lead.all isSpace = true ∧ (∀ p ∈ ls, p.1.WF ∧ p.1.Fits) ∧ (∀ p ∈ ls, p.2.all isSpace = true) ∧ (∀ p ∈ ls.dropLast, p.2 ≠ []) ∧
    ls.map (fun p => p.1.tok) = xs.flatMap Ext.toks
  ascii : ∀ b ∈ src, b.toNat < 128 ∧ b ≠ 0

theorem takeWhile_all {p : α → Bool} : ∀ {l : List α}, (∀ x ∈ l, p x = true) → l.takeWhile p = l
  | [], _ => rfl
  | x :: l, h => by rw [List.takeWhile_cons, h x (by simp), if_pos rfl, takeWhile_all fun y hy => h y (by simp [hy])]

theorem tok_ne_eof (l : Lexeme) : l.tok ≠ .eof := by cases l <;> simp [Lexeme.tok]

theorem spells_eof {src : List UInt8} {xs : List Ext} (h : Spells src xs) : Tok.eof ∉ xs.flatMap Ext.toks := by
  obtain ⟨lead, ls, -, -, -, -, -, h5⟩ := h.text
  rw [← h5, List.mem_map]
  rintro ⟨p, -, h⟩
  exact tok_ne_eof _ h

theorem toks_ne (x : Ext) : x.toks ≠ [] := by
  cases x with
  | func ss n d is => simp [Ext.toks]
  | decl d => obtain ⟨ss, ids⟩ := d; simp [Ext.toks, Decl.toks]

theorem spells_ne {src : List UInt8} {xs : List Ext} (h : Spells src xs) (hne : xs ≠ []) : src ≠ [] := by
  obtain ⟨lead, ls, rfl, -, h2, -, -, h5⟩ := h.text
  intro h0
  cases xs with
  | nil => exact hne rfl
  | cons x xs =>
    cases ls with
    | nil =>
      rw [List.flatMap_cons] at h5
      exact toks_ne x (List.append_eq_nil_iff.1 h5.symm).1
    | cons q qs =>
      obtain ⟨b, r, e1, -, -⟩ := Lexer.text_first (h2 q (by simp)).1
      simp only [layout, List.map_cons, List.flatten_cons, e1, List.cons_append, List.append_eq_nil_iff] at h0
      cases h0.2

theorem spells_lexed {src : List UInt8} {xs : List Ext} (h : Spells src xs) (hne : src ≠ []) : Lexer.tokenize src = .ok (unitToks xs) := by
  obtain ⟨lead, ls, rfl, h1, h2, h3, h4, h5⟩ := h.text
  have hc : Lexer.fileContent (layout lead ls) = .ok (layout lead ls) := by
    unfold Lexer.fileContent
    rw [if_neg hne, takeWhile_all (fun b hb => by simpa using (h.ascii b hb).2)]
  unfold Lexer.tokenize
  rw [hc]
  show Lexer.lex _ = _
  rw [C14_layout_partial lead ls h1 h2 h3 h4 fun b hb => (h.ascii b hb).1, h5]
  rfl

/-- the front end: a translation unit that C gives the typed tree `u`, written with any white space, gets this tree -/
theorem front {src : List UInt8} {xs : List Ext} {u : List SExt} (h : Spells src xs) (hne : xs ≠ []) (hok : unitOk [] xs) (hu : Stat.unit true xs = .ok u) :
    ∃ N, ∀ fuel, N ≤ fuel → treeOf fuel src = some u := by
  have ht := spells_lexed h (spells_ne h hne)
  have he := spells_eof h
  have hc := Stat.C67_units_partial xs hne hok he (by rw [hu]; simp)
  have hl : Stat.unit true xs = Stat.unit false xs := (StatL.unit_le xs).resolve_left (by rw [hu]; simp)
  unfold Stat.UnitConforms at hc
  rw [← hl, hu] at hc
  obtain ⟨a, s, h1, N, h2⟩ := hc
  refine ⟨max N (Parser.enough (unitToks xs)), fun fuel hf => ?_⟩
  have hp := Parser.parse_mono (Nat.le_trans (Nat.le_max_right _ _) hf) (.unit []) (Parser.start (unitToks xs)) (by
    show Parser.run _ ≠ _
    rw [h1]; simp)
  simp only [treeOf, ht]
  rw [hp]
  simp only [show Parser.parse (Parser.enough (unitToks xs)) (.unit []) (Parser.start (unitToks xs)) = _ from h1, Main.ofParser]
  rw [h2 fuel (Nat.le_trans (Nat.le_max_left _ _) hf)]

/-! ### the functions of the part are plain -/

theorem fns_mem {sym : Name → BitVec 64} {size : Name → Nat} {g : CStm.Fn} : ∀ {u : List SExt} {V : CStm.Vars} {fns : List CStm.Fn}, CStm.fnsOf sym size u V = some fns → g ∈ fns →
    SExt.func g.name.val (.func g.ps g.rt) g.body ∈ u
  | [], V, fns, h, hg => by
    simp only [CStm.fnsOf, Option.some.injEq] at h
    subst h
    cases hg
  | x :: xs, V, fns, h, hg => by
    simp only [CStm.fnsOf, Option.bind_eq_bind, Option.bind_eq_some_iff] at h
    obtain ⟨V', -, fs, h1, h2⟩ := h
    have ih : g ∈ fs → SExt.func g.name.val (.func g.ps g.rt) g.body ∈ x :: xs := fun h => List.mem_cons_of_mem _ (fns_mem h1 h)
    split at h2
    · split at h2
      · cases h2
        rcases List.mem_cons.1 hg with rfl | hg
        · simp
        · exact ih hg
      · cases h2
    · cases h2
    · cases h2; exact ih hg

theorem outerName_tags {sym : Name → BitVec 64} {n : Str} {V V' : CStm.Vars} (h : CStm.outerName sym n V = some V') : V'.tags = V.tags := by
  unfold CStm.outerName at h
  split at h
  · split at h <;> cases h
    rfl
  · cases h; rfl

theorem outerDecls_tags {sym : Name → BitVec 64} : ∀ {ds : List SDecl} {V V' : CStm.Vars}, CStm.outerDecls sym ds V = some V' → V'.tags = V.tags
  | [], V, V', h => by cases h; rfl
  | d :: ds, V, V', h => by
    simp only [CStm.outerDecls, Option.bind_eq_bind, Option.bind_eq_some_iff] at h
    obtain ⟨V1, h1, h2⟩ := h
    rw [outerDecls_tags h2, outerName_tags h1]

theorem outer_small {sym : Name → BitVec 64} {each : Nat} {x : SExt} {V V' : CStm.Vars} (h : CStm.outer sym x V = some V') (hx : wholeExt each x = true)
    (hV : Plain.smallTags V.tags = true) : Plain.smallTags V'.tags = true := by
  cases x with
  | func f t b => rw [outerName_tags h]; exact hV
  | decls ds => rw [outerDecls_tags h]; exact hV
  | tag n t =>
    simp only [CStm.outer, Option.bind_eq_bind, Option.bind_eq_some_iff] at h
    obtain ⟨_, -, h⟩ := h
    unfold CStm.declareTag at h
    split at h
    · simp only [Option.bind_eq_bind, Option.bind_eq_some_iff] at h
      obtain ⟨_, -, h⟩ := h
      cases h
      simp only [wholeExt] at hx
      cases hts : V.tags with
      | nil => simp [CStm.add, Plain.smallTags, hx]
      | cons sc ts =>
        rw [hts] at hV
        simp only [Plain.smallTags, List.all_cons, Bool.and_eq_true] at hV
        simp only [CStm.add, Plain.smallTags, List.all_cons, Bool.and_eq_true]
        exact ⟨⟨hx, hV.1⟩, hV.2⟩
    · cases h; exact hV

theorem fns_small {sym : Name → BitVec 64} {size : Name → Nat} {each : Nat} {g : CStm.Fn} : ∀ {u : List SExt} {V : CStm.Vars} {fns : List CStm.Fn},
    CStm.fnsOf sym size u V = some fns → g ∈ fns → (∀ x ∈ u, wholeExt each x = true) → Plain.smallTags V.tags = true → Plain.smallTags g.scope.tags = true
  | [], V, fns, h, hg, _, _ => by
    simp only [CStm.fnsOf, Option.some.injEq] at h
    subst h
    cases hg
  | x :: xs, V, fns, h, hg, hw, hV => by
    simp only [CStm.fnsOf, Option.bind_eq_bind, Option.bind_eq_some_iff] at h
    obtain ⟨V', h0, fs, h1, h2⟩ := h
    have ih : g ∈ fs → Plain.smallTags g.scope.tags = true := fun h => fns_small h1 h (fun x hx => hw x (List.mem_cons_of_mem _ hx)) (outer_small h0 (hw x (List.mem_cons_self ..)) hV)
    split at h2
    · split at h2
      · cases h2
        rcases List.mem_cons.1 hg with rfl | hg
        · exact hV
        · exact ih hg
      · cases h2
    · cases h2
    · cases h2; exact ih hg

theorem frameSize_mono {a b : Nat} (h : a ≤ b) : X86.frameSize a ≤ X86.frameSize b := by
  unfold X86.frameSize
  exact Nat.mul_le_mul_right _ (Nat.div_le_div_right (by omega))

theorem plain_of {u : List SExt} {code out : List Immc} {qs : List Liveseq} {items : List X64.Item} {fuel each : Nat} {sym : Name → BitVec 64} {fns : List CStm.Fn}
    (hgen : Gen.generate u = .ok code) (hreg : Regalloc.run code 8 fuel = .ok (out, qs)) (hx : X64.generate out qs = .ok items) (hlab : (X86.labelNames items).Nodup)
    (hfns : CStm.fnsOf sym (X86.sizeIn out) u CStm.noVars = some fns) (hw : ∀ x ∈ u, wholeExt each x = true) : fns.all (X86.plainFn out each) = true := by
  rw [List.all_eq_true]
  intro g hg
  obtain ⟨h1, h2⟩ := fn_lines hgen hreg hx hlab hfns hg
  have h3 := hw _ (fns_mem hfns hg)
  have h4 := frameSize_mono h1
  simp only [wholeExt, Bool.and_eq_true, decide_eq_true_eq] at h3
  obtain ⟨⟨⟨⟨⟨⟨a1, a2⟩, a3⟩, a4⟩, a5⟩, a6⟩, a7⟩ := h3
  simp only [X86.plainFn, Bool.and_eq_true, decide_eq_true_eq]
  exact ⟨⟨⟨⟨⟨⟨⟨a1, a2⟩, a3⟩, a4⟩, a5⟩, Plain.plainIn_mono (by omega) a6⟩, by omega⟩, fns_small hfns hg hw (by decide)⟩

/-- C75 in full: every translation unit of C, written with any white space, goes through the whole compiler, and the instructions that come out do what C says, whatever the rest of the
world is; local objects take as many bytes as the code reserves, and some number of bytes of stack is enough for every function. -/
def C75_full : Prop := ∀ (W : Type) (src : List UInt8) (xs : List Ext) (u : List SExt), Spells src xs → xs ≠ [] → unitOk [] xs → Stat.unit false xs = .ok u →
  ∃ N, ∀ fuel, N ≤ fuel → ∃ code out qs items, Compiled fuel src u code out qs items ∧ Main.stages fuel src = .ok items ∧
    ∃ each, each < 2 ^ 32 ∧ ∀ (P : CStm.Prog W) (I : X86.Image W), P.lim = false → P.each = each → X86.Loaded P I u out items → ∀ n, P.stack (n + 1) < 2 ^ 61 → ∀ g ∈ P.fns, X86.Entry P I items n g

/-- C75 for a part of C. The translation unit: C gives it the typed tree `u`, where the rules of C hold that C67 covers; the code generator has rules for all of `u`
(`Tr.fitsUnit`: C62 shows that these are just the units with intermediate code); every expression needs few registers (`Tidy.goodExt`: C74); the functions are plain and
have objects of moderate size (`wholeExt`). All of this is about the source and can be computed from it. Then for any fuel that is large enough the whole compiler
succeeds, and all functions do what C says. Missing: calls and divisions inside of larger
expressions, and the rest of what `Plain`, `goodExt` and `fitsUnit` leave out. -/
theorem C75_program_partial {W : Type} {src : List UInt8} {xs : List Ext} {u : List SExt} {each : Nat} (hs : Spells src xs) (hne : xs ≠ []) (hok : unitOk [] xs)
    (hu : Stat.unit true xs = .ok u) (hf : Tr.fitsUnit (fun id => (Gen.stringName id).1) Tr.nothing u = true) (hg : ∀ x ∈ u, Tidy.goodExt x = true) (hw : ∀ x ∈ u, wholeExt each x = true) :
    ∃ N, ∀ fuel, N ≤ fuel → ∃ code out qs items, Compiled fuel src u code out qs items ∧ Main.stages fuel src = .ok items ∧
      ∀ (P : CStm.Prog W) (I : X86.Image W), P.lim = true → P.each = each → X86.Loaded P I u out items → ∀ n, P.stack (n + 1) < 2 ^ 61 → ∀ g ∈ P.fns, X86.Entry P I items n g := by
  obtain ⟨N1, h1⟩ := front hs hne hok hu
  obtain ⟨code, h2⟩ := (Gen.C62_translatable_partial u).2 hf
  obtain ⟨N2, h3⟩ := C74_right_partial (W := W) src u code h2 hg
  refine ⟨max N1 N2, fun fuel hfu => ?_⟩
  obtain ⟨out, qs, items, h4, h5, h6⟩ := h3 fuel (by omega) (h1 fuel (by omega))
  refine ⟨code, out, qs, items, h4, h5, fun P I hl he hd n hn g hgm => ?_⟩
  refine h6 P I hl hd ?_ n hn g hgm
  subst he
  exact plain_of h2 h4.allocated h4.translated hd.labels hd.functions hw

/-! ### writing down a translation unit -/

/-- decimal digits, most significant first; `n + 1` steps are enough -/
def digits : Nat → Nat → List UInt8 → List UInt8
  | 0, _, acc => acc
  | k + 1, n, acc => if n < 10 then UInt8.ofNat (48 + n) :: acc else digits k (n / 10) (UInt8.ofNat (48 + n % 10) :: acc)

/-- a lexeme for a token -/
def lexeme : Tok → Lexeme
  | .kw k => .kw k
  | .ident s => .ident s
  | .punct p => .punct p
  | .int l => if l.value = 0 then .int .oct [0x30] .int [] else .int .dec (digits 20 l.value.toNat []) .int []
  | _ => .punct .comma

def allKw : List KW := [.kbreak, .kcase, .kchar, .kcontinue, .kdefault, .kelse, .kenum, .kfor, .kif, .kint, .klong, .kreturn, .ksizeof, .kstruct, .kswitch, .ktypedef, .kunsigned, .kvoid, .kwhile]

/-- the lexeme for the token is right -/
def spelt (t : Tok) : Bool :=
  decide ((lexeme t).tok = t) && (match lexeme t with
  | .ident (c :: r) => isLetter c && r.all isWord && allKw.all fun k => decide (c :: r ≠ kwText k)
  | .ident [] => false
  | .int .dec (d :: r) .int [] => decide (d ≠ 0x30) && (d :: r).all isDigit && decide (number 10 (d :: r) ≤ 2 ^ 63 - 1)
  | .int .oct [0x30] .int [] => true
  | .kw _ | .punct _ => true
  | _ => false) && (lexeme t).text.all fun b => decide (b.toNat < 128) && b != 0

theorem spelt_fine {t : Tok} (h : spelt t = true) : (lexeme t).tok = t ∧ (lexeme t).WF ∧ (lexeme t).Fits ∧ ∀ b ∈ (lexeme t).text, b.toNat < 128 ∧ b ≠ 0 := by
  simp only [spelt, Bool.and_eq_true, decide_eq_true_eq, List.all_eq_true] at h
  obtain ⟨⟨h1, h2⟩, h3⟩ := h
  have h4 : (lexeme t).WF ∧ (lexeme t).Fits := by
    split at h2
    · rename_i c r e
      simp only [Bool.and_eq_true, decide_eq_true_eq, List.all_eq_true] at h2
      rw [e]
      refine ⟨⟨⟨c, r, rfl, h2.1.1, by simpa using h2.1.2⟩, fun k => h2.2 k (by cases k <;> simp [allKw])⟩, trivial⟩
    · cases h2
    · rename_i d r e
      simp only [Bool.and_eq_true, decide_eq_true_eq] at h2
      rw [e]
      exact ⟨⟨⟨⟨d, r, rfl, h2.1.1⟩, h2.1.2⟩, by simp [suffix]⟩, h2.2⟩
    · rename_i e
      rw [e]
      exact ⟨⟨⟨⟨[], rfl⟩, by decide⟩, by simp [suffix]⟩, show number 8 [0x30] ≤ _ by decide⟩
    · rename_i e; rw [e]; exact ⟨trivial, trivial⟩
    · rename_i e; rw [e]; exact ⟨trivial, trivial⟩
    · cases h2
  exact ⟨h1, h4.1, h4.2, fun b hb => by simpa using h3 b hb⟩

/-- one blank after every token -/
def write (xs : List Ext) : List UInt8 := layout [] ((xs.flatMap Ext.toks).map fun t => (lexeme t, [0x20]))

theorem write_spells {xs : List Ext} (h : (xs.flatMap Ext.toks).all spelt = true) : Spells (write xs) xs := by
  rw [List.all_eq_true] at h
  refine ⟨⟨[], _, rfl, rfl, ?_, ?_, ?_, ?_⟩, ?_⟩
  · intro p hp
    obtain ⟨t, ht, rfl⟩ := List.mem_map.1 hp
    have := spelt_fine (h t ht)
    exact ⟨this.2.1, this.2.2.1⟩
  · intro p hp
    obtain ⟨t, ht, rfl⟩ := List.mem_map.1 hp
    rfl
  · intro p hp
    obtain ⟨t, ht, rfl⟩ := List.mem_map.1 (List.dropLast_subset _ hp)
    simp
  · rw [List.map_map]
    exact (List.map_congr_left fun t ht => (spelt_fine (h t ht)).1).trans (List.map_id _)
  · intro b hb
    simp only [write, layout, List.nil_append, List.map_map, List.mem_flatten, List.mem_map] at hb
    obtain ⟨l, ⟨t, ht, rfl⟩, hb⟩ := hb
    rcases List.mem_append.1 hb with hb | hb
    · exact (spelt_fine (h t ht)).2.2.2 b hb
    · simp only [List.mem_singleton] at hb; subst hb; decide

open Stat (decl1 num I noParams)

/-- `int f(int*a,int n){int i=0;int s=0;while(i<n){if(a[i]>0)s=s+a[i];else break;i++;}return s*(n-1);}` -/
def plainUnit : List Ext := [
  .func I [102] (.fn .leaf (.cons (.mk I (some [97]) (.ptr .leaf)) (.one (.mk I (some [110]) .leaf))))
    (.decl (decl1 [.ty .int] [105] .leaf (some (.expr (num 0))))
    (.decl (decl1 [.ty .int] [115] .leaf (some (.expr (num 0))))
    (.stmt (.while (.bin .lt (.ident [105]) (.ident [110])) (.block
      (.stmt (.ifElse (.bin .gt (.subsc (.ident [97]) (.ident [105])) (num 0)) (.expr (.assign .asg (.ident [115]) (.bin .add (.ident [115]) (.subsc (.ident [97]) (.ident [105]))))) .break)
      (.stmt (.expr (.postinc (.ident [105]))) .nil))))
    (.stmt (.retE (.bin .mul (.ident [115]) (.bin .sub (.ident [110]) (num 1)))) .nil))))]

def inPart (each : Nat) (xs : List Ext) : Bool := match Stat.unit true xs with
  | .ok u => Tr.fitsUnit (fun id => (Gen.stringName id).1) Tr.nothing u && u.all (fun x => Tidy.goodExt x && wholeExt each x)
  | _ => false

theorem inPart_of {each : Nat} {xs : List Ext} (h : inPart each xs = true) :
    ∃ u, Stat.unit true xs = .ok u ∧ Tr.fitsUnit (fun id => (Gen.stringName id).1) Tr.nothing u = true ∧ (∀ x ∈ u, Tidy.goodExt x = true) ∧ ∀ x ∈ u, wholeExt each x = true := by
  unfold inPart at h
  split at h
  · rename_i u hu
    simp only [Bool.and_eq_true, List.all_eq_true] at h
    exact ⟨u, hu, h.1, fun x hx => (h.2 x hx).1, fun x hx => (h.2 x hx).2⟩
  · cases h

theorem plainUnit_ok : unitOk [] plainUnit := by
  simp [plainUnit, decl1, num, I, unitOk, Ext.ok, Decl.ok, idsOk, DSpec.ok, Spec.ok, Specs.ok, IDtor.ok, Dtor.ok, ParamL.ok, ParamD.ok, Expr.ok, Init.ok,
      Items.ok, Stmt.ok, Ext.after, Decl.after, tdsAfter, Decl.isTd, DSpec.isTd, Stmt.openIf]

/-- C75 applies to this function, and 80 bytes of stack are enough for it -/
example : ∃ u N, Stat.unit true plainUnit = .ok u ∧ ∀ fuel, N ≤ fuel → ∃ code out qs items, Compiled fuel (write plainUnit) u code out qs items ∧ Main.stages fuel (write plainUnit) = .ok items ∧
    ∀ (P : CStm.Prog Nat) (I : X86.Image Nat), P.lim = true → P.each = 80 → X86.Loaded P I u out items → ∀ n, P.stack (n + 1) < 2 ^ 61 → ∀ g ∈ P.fns, X86.Entry P I items n g := by
  obtain ⟨u, h1, h2, h3, h4⟩ := inPart_of (each := 80) (xs := plainUnit) (by decide +kernel)
  obtain ⟨N, h⟩ := C75_program_partial (W := Nat) (write_spells (xs := plainUnit) (by decide +kernel)) (by simp [plainUnit]) plainUnit_ok h1 h2 h3 h4
  exact ⟨u, N, h1, h⟩

/-- there is a world where its machine code is loaded, and the function is in it -/
example : ∃ u code out qs items, Compiled 300 (write plainUnit) u code out qs items ∧ Stat.unit true plainUnit = .ok u ∧ ∃ (P : CStm.Prog Nat) (I : X86.Image Nat),
    P.lim = true ∧ P.each = 80 ∧ X86.Loaded P I u out items ∧ P.stack 1 < 2 ^ 61 ∧ P.fns.length = 1 := by
  have key : (match X86.compile 300 (write plainUnit) with
    | some (u, _, out, _, items) => decide (items.length < 2 ^ 32) && decide (X86.labelNames items).Nodup && decide (Stat.unit true plainUnit = .ok u) &&
      (match CStm.fnsOf (X86.imageOf items).host.sym (X86.sizeIn out) u CStm.noVars with
      | some fns => decide (fns.length = 1)
      | none => false)
    | none => false) = true := by decide +kernel
  split at key
  · rename_i u code out qs items hb
    simp only [Bool.and_eq_true, decide_eq_true_eq] at key
    obtain ⟨⟨⟨k1, k2⟩, k3⟩, k4⟩ := key
    split at k4
    · rename_i fns hf
      refine ⟨u, code, out, qs, items, X86.compile_of hb, k3, X86.progOf u out items 80 true, X86.imageOf items, rfl, rfl, X86.progOf_loaded k1 k2 (by rw [hf]; rfl), ?_, ?_⟩
      · simp [CStm.Prog.stack, X86.progOf]
      · simp only [X86.progOf, hf, Option.getD_some]
        exact of_decide_eq_true k4
    · cases k4
  · cases key

/-- `int f(int n){if(n<=0)return 1;return f(n-1)*n;} int g(int a){int x=f(a);return x;}` -/
def callUnit : List Ext := [
  .func I [102] (.fn .leaf (.one (.mk I (some [110]) .leaf)))
    (.stmt (.ifS (.bin .le (.ident [110]) (num 0)) (.retE (num 1)))
    (.stmt (.retE (.bin .mul (.call (.ident [102]) (.cons (.bin .sub (.ident [110]) (num 1)) .nil)) (.ident [110]))) .nil)),
  .func I [103] (.fn .leaf (.one (.mk I (some [97]) .leaf)))
    (.decl (decl1 [.ty .int] [120] .leaf (some (.expr (.call (.ident [102]) (.cons (.ident [97]) .nil)))))
    (.stmt (.retE (.ident [120])) .nil))]

theorem callUnit_ok : unitOk [] callUnit := by
  simp [callUnit, decl1, num, I, unitOk, Ext.ok, Decl.ok, idsOk, DSpec.ok, Spec.ok, Specs.ok, IDtor.ok, Dtor.ok, ParamL.ok, ParamD.ok, Expr.ok, Args.ok, Init.ok,
      Items.ok, Stmt.ok, Ext.after, Decl.after, tdsAfter, Decl.isTd, DSpec.isTd, Stmt.openIf]

/-- C75 applies to functions that call each other and themselves -/
example : ∃ u N, Stat.unit true callUnit = .ok u ∧ ∀ fuel, N ≤ fuel → ∃ code out qs items, Compiled fuel (write callUnit) u code out qs items ∧ Main.stages fuel (write callUnit) = .ok items ∧
    ∀ (P : CStm.Prog Nat) (I : X86.Image Nat), P.lim = true → P.each = 80 → X86.Loaded P I u out items → ∀ n, P.stack (n + 1) < 2 ^ 61 → ∀ g ∈ P.fns, X86.Entry P I items n g := by
  obtain ⟨u, h1, h2, h3, h4⟩ := inPart_of (each := 80) (xs := callUnit) (by decide +kernel)
  obtain ⟨N, h⟩ := C75_program_partial (W := Nat) (write_spells (xs := callUnit) (by decide +kernel)) (by simp [callUnit]) callUnit_ok h1 h2 h3 h4
  exact ⟨u, N, h1, h⟩

/-- `struct P{int x;int y;};int f(struct P*p){p->x=p->x-p->y;return p->x;}int g(int n){struct P s;s.x=n;s.y=2;return f(&s)+s.y;}` -/
def structUnit : List Ext := [
  .decl ⟨[.ty (.structDef (some [80]) (.cons (.mk I (.one [120] .leaf)) (.one (.mk I (.one [121] .leaf)))))], []⟩,
  .func I [102] (.fn .leaf (.one (.mk (.one (.structRef [80])) (some [112]) (.ptr .leaf))))
    (.stmt (.expr (.assign .asg (.arrow (.ident [112]) [120]) (.bin .sub (.arrow (.ident [112]) [120]) (.arrow (.ident [112]) [121]))))
    (.stmt (.retE (.arrow (.ident [112]) [120])) .nil)),
  .func I [103] (.fn .leaf (.one (.mk I (some [110]) .leaf)))
    (.decl (decl1 [.ty (.structRef [80])] [115] .leaf none)
    (.stmt (.expr (.assign .asg (.member (.ident [115]) [120]) (.ident [110])))
    (.stmt (.expr (.assign .asg (.member (.ident [115]) [121]) (num 2)))
    (.stmt (.retE (.bin .add (.call (.ident [102]) (.cons (.un .addr (.ident [115])) .nil)) (.member (.ident [115]) [121]))) .nil))))]

theorem structUnit_ok : unitOk [] structUnit := by
  simp [structUnit, decl1, num, I, unitOk, Ext.ok, Decl.ok, idsOk, DSpec.ok, Spec.ok, Specs.ok, IDtor.ok, Dtor.ok, ParamL.ok, ParamD.ok, MemberL.ok, MemberD.ok, NDtors.ok, Expr.ok, Args.ok, Init.ok,
      Items.ok, Stmt.ok, Ext.after, Decl.after, tdsAfter, Decl.isTd, DSpec.isTd, Stmt.openIf]

/-- C75 applies to functions that use structures -/
example : ∃ u N, Stat.unit true structUnit = .ok u ∧ ∀ fuel, N ≤ fuel → ∃ code out qs items, Compiled fuel (write structUnit) u code out qs items ∧ Main.stages fuel (write structUnit) = .ok items ∧
    ∀ (P : CStm.Prog Nat) (I : X86.Image Nat), P.lim = true → P.each = 80 → X86.Loaded P I u out items → ∀ n, P.stack (n + 1) < 2 ^ 61 → ∀ g ∈ P.fns, X86.Entry P I items n g := by
  obtain ⟨u, h1, h2, h3, h4⟩ := inPart_of (each := 80) (xs := structUnit) (by decide +kernel)
  obtain ⟨N, h⟩ := C75_program_partial (W := Nat) (write_spells (xs := structUnit) (by decide +kernel)) (by simp [structUnit]) structUnit_ok h1 h2 h3 h4
  exact ⟨u, N, h1, h⟩

/-- `int x = -1;` is a translation unit of C without intermediate code -/
def minusUnit : List Ext := [.decl (decl1 [.ty .int] [120] .leaf (some (.expr (.un .neg (num 1)))))]

/-- C75 does not hold in full -/
theorem C75_violated : ¬ C75_full := by
  intro h
  have key : (match Stat.unit false minusUnit with
    | .ok u => (match Gen.generate u with | .ok _ => false | _ => true)
    | _ => false) = true := by decide +kernel
  split at key
  · rename_i u hu
    obtain ⟨N, h⟩ := h Unit (write minusUnit) minusUnit u (write_spells (by decide +kernel)) (by simp [minusUnit])
      (by simp [minusUnit, decl1, num, unitOk, Ext.ok, Decl.ok, idsOk, DSpec.ok, Spec.ok, IDtor.ok, Dtor.ok, Expr.ok, Init.ok]) hu
    obtain ⟨code, out, qs, items, h1, -⟩ := h N (Nat.le_refl _)
    rw [h1.generated] at key
    cases key
  · cases key

end Whole
end Umlcc
