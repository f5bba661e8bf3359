import Verif.Lemma.AsmRun
import Verif.Props.Program
import Verif.Props.Main
/-!
C69: the characters printed are read by the assembler as the code generated. C70: from the characters of the source file to those of the output file.
-/
namespace Umlcc
namespace Asm
open X64 (Item)
open X86 (Conf Image Compiled compile compile_of imageOf entryMach)
open X86 (sizeIn)
open CStm (Prog Fn fnsOf noVars)

variable {W : Type}

/-- C69 in full: what is printed for the code a source text compiles to is read as one statement for every item, in its section, and the same global symbols -/
def C69_full : Prop := ∀ n src items text, Main.stages n src = .ok items → Main.printAll items = .ok text →
  ∃ ss, stmtsOf .text items = .ok ss ∧ read text = some ⟨ss, globalsOf items⟩

/-- C69 for all items the assembler can read. Missing: strings with `\a`, `\v` or bytes above 127, for which it fails; that names in generated code are
symbols is a hypothesis. -/
theorem C69_text_partial {items : List Item} {text : List UInt8} (h : Main.printAll items = .ok text) (hl : ∀ x ∈ items, Legible x) :
    ∃ ss, stmtsOf .text items = .ok ss ∧ read text = some ⟨ss, globalsOf items⟩ := by
  obtain ⟨es, h1, h2, h3⟩ := printAll_read h hl
  refine ⟨_, h3 .text, ?_⟩
  rw [read, h1 _ (Nat.le_succ _), ← h2]
  rfl

/-- the text of the example of C68, and what is read -/
example : ∃ u code out qs items text ss, Compiled 99 X86.oneSource u code out qs items ∧ Main.printAll items = .ok text ∧ (∀ x ∈ items, Legible x) ∧ arranged .text items = true ∧
    text.take 36 = letters "\t.text\n\t.globl one\none:\n\tpushq\t%rbp\n" ∧ read text = some ⟨ss, [X86.oneName, X86.mainName]⟩ ∧
    ss.take 3 = [(.text, .label X86.oneName), (.text, .inst ⟨"pushq", [.reg "%rbp"]⟩), (.text, .inst ⟨"movq", [.reg "%rsp", .reg "%rbp"]⟩)] := by
  have key : (match compile 99 X86.oneSource with
    | some (_, _, _, _, items) => (match Main.printAll items with
      | .ok text => decide (∀ x ∈ items, Legible x) && arranged .text items && decide (text.take 36 = letters "\t.text\n\t.globl one\none:\n\tpushq\t%rbp\n") &&
        (match read text with
        | some o => decide (o.globals = [X86.oneName, X86.mainName]) &&
          decide (o.stmts.take 3 = [(.text, .label X86.oneName), (.text, .inst ⟨"pushq", [.reg "%rbp"]⟩), (.text, .inst ⟨"movq", [.reg "%rsp", .reg "%rbp"]⟩)])
        | none => false)
      | _ => false)
    | none => false) = true := by decide +kernel
  split at key
  · rename_i u code out qs items hb
    split at key
    · rename_i text ht
      simp only [Bool.and_eq_true, decide_eq_true_eq] at key
      obtain ⟨⟨⟨k1, k2⟩, k3⟩, k4⟩ := key
      split at k4
      · rename_i o ho
        simp only [Bool.and_eq_true, decide_eq_true_eq] at k4
        obtain ⟨ss, gs⟩ := o
        obtain ⟨rfl, k5⟩ := k4
        exact ⟨u, code, out, qs, items, text, ss, compile_of hb, ht, k1, k2, k3, ho, k5⟩
      · cases k4
    · cases key
  · cases key

/-- `char s[3] = "\a!";` -/
def alertSource : List UInt8 := letters "char s[3]=\"\\a!\";"

/-- C69 fails: the assembler knows no `\a` and makes it the letter `a`. -/
theorem C69_violated : ¬ C69_full := by
  have key : (match Main.stages 99 alertSource with
    | .ok items => (match Main.printAll items with
      | .ok text => decide (read text = some ⟨[(.data, .label ⟨[115], by decide⟩), (.data, .bytes [97, 33, 0])], [⟨[115], by decide⟩]⟩) &&
        (match stmtsOf .text items with
        | .ok ss => decide (ss = [(.data, .label ⟨[115], by decide⟩), (.data, .bytes [7, 33, 0])])
        | _ => false)
      | _ => false)
    | _ => false) = true := by decide +kernel
  intro h
  split at key
  · rename_i items hi
    split at key
    · rename_i text ht
      simp only [Bool.and_eq_true, decide_eq_true_eq] at key
      obtain ⟨k1, k2⟩ := key
      obtain ⟨ss, h1, h2⟩ := h 99 alertSource items text hi ht
      rw [h1] at k2
      dsimp only at k2
      rw [decide_eq_true_eq] at k2
      rw [k1] at h2
      injection h2 with h2
      injection h2 with h2
      rw [k2] at h2
      revert h2
      decide
    · cases key
  · cases key

/-! ### C70 -/

/-- The compiler, called with the name of a file, succeeds and leaves the text in the output file; there was room for more. -/
structure Output (fuel : Nat) (stem : List UInt8) (fs : Main.Files) (src text : List UInt8) : Prop where
  source : fs.content (stem ++ letters ".c") = some src
  run : ∃ fs', Main.main fuel [stem ++ letters ".c"] fs = .ok (0, fs') ∧ fs'.content (stem ++ letters ".s") = some text
  room : text.length < fs.room

theorem names_c : letters ".c" = [0x2E, 0x63] ∧ letters ".s" = [0x2E, 0x73] := by decide +kernel

/-- what the text in the output file is -/
theorem output_text {fuel : Nat} {stem : List UInt8} {fs : Main.Files} {src text : List UInt8} (h : Output fuel stem fs src text) :
    ∃ items, Main.stages fuel src = .ok items ∧ Main.printAll items = .ok text := by
  obtain ⟨h1, ⟨fs', h2, h3⟩, h4⟩ := h
  obtain ⟨e1, e2⟩ := names_c
  rw [e1] at h1 h2
  rw [e2] at h3
  simp only [Main.main, h1] at h2
  split at h2
  · cases h2
  · split at h2 <;> try cases h2
    rename_i items hi
    split at h2
    · cases h2
    · split at h2
      · rename_i t ht
        rw [Main.dstName_c] at h2
        cases h2
        simp only [Main.write, if_true, Option.some.injEq] at h3
        refine ⟨items, hi, ?_⟩
        rw [ht]
        have : t.length < fs.room := by
          have := congrArg List.length h3
          rw [List.length_take] at this
          omega
        rw [List.take_of_length_le (Nat.le_of_lt this)] at h3
        rw [h3]
      · cases h2

/-- The object file, the functions outside and the functions of the translation unit belong together. No label is defined twice. -/
structure Loaded (P : Prog W) (I : Image W) (u : List SExt) (size : Name → Nat) (o : Obj) : Prop where
  labels : (labels o.stmts).Nodup
  functions : fnsOf P.sym size u noVars = some P.fns
  linked : Linked I o
  symbols : I.host.sym = P.sym
  outside : X86.Outside P I

/-- C70 in full: the output file is read by the assembler, and wherever the object file is put, the functions in it do what C says of the functions of the source
file; local objects take as many bytes as the code reserves, and some number of bytes of stack is enough for every function. -/
def C70_full : Prop := ∀ (W : Type) (fuel : Nat) (stem : List UInt8) (fs : Main.Files) (src text : List UInt8) (u : List SExt) (code out : List Immc) (qs : List Liveseq) (items : List Item),
  Output fuel stem fs src text → Compiled fuel src u code out qs items →
  ∃ o each, read text = some o ∧ each < 2 ^ 32 ∧ ∀ (P : Prog W) (I : Image W), P.lim = false → P.each = each → Loaded P I u (sizeIn out) o →
    ∀ n, P.stack (n + 1) < 2 ^ 61 → ∀ g ∈ P.fns, X86.EntryBy (hops I o.stmts) P I n g

/-- the code of a source text passes the tests: it can be read by the assembler, instructions are in `.text`, and all functions pass the test of C65 or belong to the part of C71 -/
def Tested (rounds each : Nat) (out : List Immc) (qs : List Liveseq) (items : List Item) (fns : List Fn) : Bool :=
  decide (∀ x ∈ items, Legible x) && arranged .text items && fns.all (X86.proper out qs rounds each)

theorem compiled_stages {fuel : Nat} {src : List UInt8} {u : List SExt} {code out : List Immc} {qs : List Liveseq} {items : List Item} (h : Compiled fuel src u code out qs items) :
    Main.stages fuel src = .ok items := by
  obtain ⟨⟨toks, a, h1, h2, h3⟩, h4, h5, h6⟩ := h
  simp only [Main.stages, h1, h2, h3, h4, h5, h6, Out.ok_bind]

/-- C70 for programs that pass the tests. -/
theorem C70_file_partial {fuel rounds : Nat} {stem : List UInt8} {fs : Main.Files} {src text : List UInt8} {u : List SExt} {code out : List Immc} {qs : List Liveseq} {items : List Item}
    {P : Prog W} {I : Image W} (ho : Output fuel stem fs src text) (hc : Compiled fuel src u code out qs items) (hlim : P.lim = true) (ht : Tested rounds P.each out qs items P.fns = true) :
    ∃ o, read text = some o ∧ (Loaded P I u (sizeIn out) o → ∀ n, P.stack (n + 1) < 2 ^ 61 → ∀ g ∈ P.fns, X86.EntryBy (hops I o.stmts) P I n g) := by
  obtain ⟨items', h1, h2⟩ := output_text ho
  rw [compiled_stages hc] at h1
  cases h1
  simp only [Tested, Bool.and_eq_true, decide_eq_true_eq] at ht
  obtain ⟨ss, h3, h4⟩ := C69_text_partial h2 ht.1.1
  refine ⟨_, h4, ?_⟩
  intro hld n hn g hg
  rw [hops_eq h3 ht.1.2]
  refine X86.C68_program_partial hc hlim ⟨?_, hld.functions, linked_of h3 ht.1.2 hld.linked, hld.symbols, hld.outside⟩ ht.2 n hn g hg
  rw [← stmts_labels h3]
  exact hld.labels

/-- the memory of the examples of C68 suits the object file -/
theorem loaded_of {u : List SExt} {out : List Immc} {items : List Item} {ss : List (Sec × Stmt)} {each : Nat} {lim : Bool} (h1 : items.length < 2 ^ 32) (h2 : (X86.labelNames items).Nodup)
    (h3 : (fnsOf (imageOf items).host.sym (sizeIn out) u noVars).isSome = true) (h : stmtsOf .text items = .ok ss) (ha : arranged .text items = true) :
    Loaded (X86.progOf u out items each lim) (imageOf items) u (sizeIn out) ⟨ss, globalsOf items⟩ := by
  have hl := X86.progOf_loaded (each := each) (lim := lim) h1 h2 h3
  obtain ⟨hlen, hat⟩ := stmts_at h ha
  have back : ∀ (p : Nat) s y, ss[p]? = some (s, y) → ∃ x, items[p]? = some x ∧ stmtOf x = .ok y := by
    intro p s y hp
    have hlt := (List.getElem?_eq_some_iff.1 hp).1
    obtain ⟨s', y', hy, hs, -⟩ := hat p _ (List.getElem?_eq_getElem (by omega))
    rw [hp] at hs
    cases hs
    exact ⟨_, List.getElem?_eq_getElem (by omega), hy⟩
  refine ⟨by rw [stmts_labels h]; exact h2, hl.functions, ⟨?_, ?_⟩, hl.symbols, hl.outside⟩
  · intro p n hp _
    obtain ⟨x, hx, hy⟩ := back p _ _ hp
    have : ∃ t v, x = .label t v n := by
      cases x with
      | inst i =>
        simp only [stmtOf, Out.bind_eq_ok] at hy
        obtain ⟨l, -, hy⟩ := hy
        cases hy
      | data d => cases hy
      | label t v l => cases hy; exact ⟨t, v, rfl⟩
    obtain ⟨t, v, rfl⟩ := this
    have hlt := (List.getElem?_eq_some_iff.1 hx).1
    show (imageOf items).locate (BitVec.ofNat 64 (0x400000 + _)) = _
    rw [X86.findIdx_label hx h2]
    exact X86.imageOf_at h1 (by omega)
  · intro p s l hp _
    have hlt := (List.getElem?_eq_some_iff.1 hp).1
    exact X86.imageOf_at h1 (show p + 1 ≤ items.length by dsimp only at hlt; omega)

/-- the files: one source file -/
def filesOf (name src : List UInt8) : Main.Files := ⟨fun f => if f = name then some src else none, fun _ => true, 1000000⟩

theorem output_of {fuel : Nat} {src : List UInt8} {items : List Item} {text : List UInt8} (h1 : Main.stages fuel src = .ok items) (h2 : Main.printAll items = .ok text) (h3 : text.length < 1000000) :
    Output fuel [0x61] (filesOf (letters "a.c") src) src text := by
  have e : letters "a.c" = [0x61, 0x2E, 0x63] := by decide +kernel
  obtain ⟨e1, e2⟩ := names_c
  have hf : (filesOf (letters "a.c") src).content [0x61, 0x2E, 0x63] = some src := by simp only [filesOf, e, if_true]
  have hw : (filesOf (letters "a.c") src).writable (Main.dstName [0x61, 0x2E, 0x63]) = true := rfl
  refine ⟨by rw [e1]; exact hf, ⟨Main.write (filesOf (letters "a.c") src) [0x61, 0x2E, 0x73] text, ?_, ?_⟩, h3⟩
  · rw [e1]
    have hc : Main.isCFile [0x61, 0x2E, 0x63] = true := by decide
    have hd : Main.dstName [0x61, 0x2E, 0x63] = [0x61, 0x2E, 0x73] := by decide
    show Main.main fuel [[0x61, 0x2E, 0x63]] _ = _
    simp only [Main.main, hf, hc, h1, h2, hd, Bool.not_true, Bool.false_eq_true, if_false]
    rfl
  · rw [e2]
    simp only [Main.write, filesOf, List.cons_append, List.nil_append, if_true]
    rw [List.take_of_length_le (by omega)]

/-- C70 fails where C68 does: a file with `int f(int n){return n++<3;}`. -/
theorem C70_violated : ¬ C70_full := by
  intro h
  obtain ⟨u, code, out, qs, items, hb, k1, k2, k3, k4⟩ := X86.count_fails
  have key : (match compile 99 X86.countSource with
    | some (_, _, _, _, items) => decide (∀ x ∈ items, Legible x) && arranged .text items && (match Main.printAll items with | .ok text => decide (text.length < 1000000) | _ => false)
    | none => false) = true := by decide +kernel
  rw [hb] at key
  simp only [Bool.and_eq_true, decide_eq_true_eq] at key
  obtain ⟨⟨hl, ha⟩, hp⟩ := key
  split at hp
  · rename_i text ht
    rw [decide_eq_true_eq] at hp
    have hc := compile_of hb
    obtain ⟨o, each, h1, h2, h3⟩ := h Nat 99 _ _ X86.countSource text u code out qs items (output_of (compiled_stages hc) ht hp) hc
    obtain ⟨ss, h4, h5⟩ := C69_text_partial ht hl
    rw [h5] at h1
    cases h1
    have hf : (X86.progOf u out items each false).fns = [X86.countFn] := by simp only [X86.progOf, k3, Option.getD_some]
    have := h3 (X86.progOf u out items each false) (imageOf items) rfl rfl (loaded_of k1 k2 (by rw [k3]; rfl) h4 ha) 0 (by rw [X86.progOf_stack]; omega) X86.countFn (by rw [hf]; simp)
    rw [hops_eq h4 ha] at this
    exact k4 each this
  · cases hp

/-- The example of C68, from file to file: `main` in the output file returns 42. -/
example : ∃ u code out qs items text o, Output 99 [0x61] (filesOf (letters "a.c") X86.oneSource) X86.oneSource text ∧ Compiled 99 X86.oneSource u code out qs items ∧ read text = some o ∧
    let P := X86.progOf u out items 100 true
    let I := imageOf items
    Tested 9 P.each out qs items P.fns = true ∧ Loaded P I u (sizeIn out) o ∧ P.stack 2 < 2 ^ 61 ∧ X86.mainFn ∈ P.fns ∧
      (match hops I o.stmts (.at 8 (entryMach 5) 0) 20 with
      | some (.done a m _) => (a, X86.get m .ax .long)
      | _ => (0, 0)) = (33, 42) := by
  have key : (match compile 99 X86.oneSource with
    | some (u, _, out, qs, items) => decide (items.length < 2 ^ 32) && decide (X86.labelNames items).Nodup && (fnsOf (imageOf items).host.sym (sizeIn out) u noVars).isSome &&
      Tested 9 100 out qs items (X86.progOf u out items 100 true).fns && decide (X86.mainFn ∈ (X86.progOf u out items 100 true).fns) &&
      (match Main.printAll items with
      | .ok text => decide (text.length < 1000000) && (match read text with
        | some o => decide ((match hops (imageOf items) o.stmts (.at 8 (entryMach 5) 0) 20 with
          | some (.done a m _) => (a, X86.get m .ax .long)
          | _ => (0, 0)) = (33, 42))
        | none => false)
      | _ => false)
    | none => false) = true := by decide +kernel
  split at key
  · rename_i u code out qs items hb
    simp only [Bool.and_eq_true, decide_eq_true_eq] at key
    obtain ⟨⟨⟨⟨⟨k1, k2⟩, k3⟩, k4⟩, k5⟩, k6⟩ := key
    split at k6
    · rename_i text ht
      rw [Bool.and_eq_true, decide_eq_true_eq] at k6
      obtain ⟨k6, k7⟩ := k6
      split at k7
      · rename_i o ho
        rw [decide_eq_true_eq] at k7
        have hc := compile_of hb
        refine ⟨u, code, out, qs, items, text, o, output_of (compiled_stages hc) ht k6, hc, ho, k4, ?_, by rw [X86.progOf_stack]; decide, k5, k7⟩
        simp only [Tested, Bool.and_eq_true, decide_eq_true_eq] at k4
        obtain ⟨ss, h4, h5⟩ := C69_text_partial ht k4.1.1
        rw [h5] at ho
        cases ho
        exact loaded_of k1 k2 k3 h4 k4.1.2
      · cases k7
    · cases k6
  · cases key

end Asm
end Umlcc
