import Verif.Lemma.ParserCount
/-!
Texts without brackets are parsed in quadratic time (C16).
-/
namespace Umlcc
namespace Parser
open M

/-- if the function returns, a result satisfies `Q` and an error `E` -/
def wlp (x : M α) (Q : α → PS → Prop) (E : PS → Prop) (s : PS) : Prop :=
  match x s with
  | .ok a s' => Q a s'
  | .err s' => E s'
  | _ => True

section
variable {Q : α → PS → Prop} {E : PS → Prop} {s : PS}
theorem wlp_pure {a : α} : wlp (pure a : M α) Q E s ↔ Q a s := Iff.rfl
theorem wlp_bind {x : M β} {f : β → M α} : wlp (x >>= f) Q E s ↔ wlp x (fun a s' => wlp (f a) Q E s') E s := by
  show wlp (M.andThen x f) Q E s ↔ _
  unfold wlp M.andThen
  cases x s <;> simp
theorem wlp_fail : wlp (fail : M α) Q E s ↔ E s := Iff.rfl
theorem wlp_try {x : M β} {Q : Option β → PS → Prop} :
    wlp (try_ x) Q E s ↔ wlp x (fun a s' => Q (some a) s') (fun s' => Q none s') s := by
  unfold wlp try_
  cases x s <;> simp
theorem wlp_getToks {Q : List Tok → PS → Prop} : wlp getToks Q E s ↔ Q s.toks s := Iff.rfl
theorem wlp_setToks {Q : Unit → PS → Prop} {ts : List Tok} : wlp (setToks ts) Q E s ↔ Q () { s with toks := ts } := Iff.rfl
theorem wlp_getTds {Q : List (List UInt8) → PS → Prop} : wlp getTds Q E s ↔ Q s.tds s := Iff.rfl
theorem wlp_adv {Q : Unit → PS → Prop} : wlp adv Q E s ↔ Q () { s with toks := s.toks.tail } := Iff.rfl
theorem wlp_peek {Q : Tok → PS → Prop} : wlp peek Q E s ↔ ∀ t ts, s.toks = t :: ts → Q t s := by
  unfold wlp peek
  cases h : s.toks <;> simp
theorem wlp_consume {Q : Unit → PS → Prop} {t : Tok} :
    wlp (consume t) Q E s ↔ ∀ t' ts, s.toks = t' :: ts → if t' = t then Q () { s with toks := ts } else E s := by
  unfold wlp consume
  simp only [run_bind, peek]
  cases h : s.toks with
  | nil => simp [PR.bind]
  | cons a l => by_cases hat : a = t <;> simp [PR.bind, run_ite, hat, adv, run_fail, h]
theorem wlp_mono {x : M α} {Q' : α → PS → Prop} {E' : PS → Prop} (h : wlp x Q E s) (hq : ∀ a s', Q a s' → Q' a s')
    (he : ∀ s', E s' → E' s') : wlp x Q' E' s := by
  unfold wlp at *
  cases hx : x s <;> simp only [hx] at h ⊢
  · exact hq _ _ h
  · exact he _ h
theorem wlp_ite {c : Prop} [Decidable c] {x y : M α} :
    wlp (if c then x else y) Q E s ↔ if c then wlp x Q E s else wlp y Q E s := by split <;> rfl
end

/-- no opening bracket -/
def Flat (ts : List Tok) : Prop := .punct .lparen ∉ ts ∧ .punct .lbracket ∉ ts

theorem Flat.tail {t : Tok} {ts : List Tok} (h : Flat (t :: ts)) : Flat ts := by
  unfold Flat at *; simp_all
theorem Flat.head {t : Tok} {ts : List Tok} (h : Flat (t :: ts)) : t ≠ .punct .lparen ∧ t ≠ .punct .lbracket := by
  unfold Flat at h; simp at h; exact ⟨fun e => h.1.1 e.symm, fun e => h.2.1 e.symm⟩

/-- calls not paid for by consumed tokens -/
def extra (K : Nat) : NT → Nat
  | .primary => 1
  | .postfixLoop _ => 1
  | .postfixE => 3
  | .unary => 4
  | .castLoop _ => 5
  | .cast => 6
  | .binLoop _ _ => 1
  | .bin l => 26 - 2 * l
  | .cond => K
  | .assignLoop _ => 2 * K
  | .assign => 3 * K
  | _ => 0

/-- calls paid for by one consumed token -/
def rate (K : Nat) : NT → Nat
  | .cond | .assignLoop _ | .assign => 5 * K
  | _ => 30

def flatNT : NT → Prop
  | .primary | .postfixLoop _ | .postfixE | .unary | .castLoop _ | .cast | .binLoop _ _ | .cond | .assignLoop _ | .assign => True
  | .bin l => l ≤ 9
  | _ => False

/-- the calls are counted: `N` bounds the length, `K = 30 * N + 40` -/
def Cheap (N : Nat) (r : NT → M Ast) : Prop :=
  ∀ nt s, flatNT nt → Flat s.toks → s.toks.length ≤ N →
    wlp (r nt) (fun _ s' => Flat s'.toks ∧ s'.toks.length ≤ s.toks.length ∧
        s'.steps + rate (30 * N + 40) nt * s'.toks.length ≤ s.steps + rate (30 * N + 40) nt * s.toks.length + extra (30 * N + 40) nt)
      (fun s' => s'.steps ≤ s.steps + rate (30 * N + 40) nt * s.toks.length + extra (30 * N + 40) nt) s

section
variable {N : Nat} {r : NT → M Ast}

/-- what has to be shown of a function body -/
def CheapBody (N : Nat) (nt : NT) (x : M Ast) : Prop :=
  ∀ s, Flat s.toks → s.toks.length ≤ N →
    wlp x (fun _ s' => Flat s'.toks ∧ s'.toks.length ≤ s.toks.length ∧
        s'.steps + rate (30 * N + 40) nt * s'.toks.length + 1 ≤ s.steps + rate (30 * N + 40) nt * s.toks.length + extra (30 * N + 40) nt)
      (fun s' => s'.steps + 1 ≤ s.steps + rate (30 * N + 40) nt * s.toks.length + extra (30 * N + 40) nt) s

theorem cheap_primary : CheapBody N .primary (body r .primary) := by
  intro s hf hn
  simp only [body, pPrimary, wlp_bind, wlp_peek, wlp_getTds]
  intro t ts hs
  rw [hs] at hf hn ⊢
  have hh := hf.head
  have ht := hf.tail
  simp only [rate, extra, List.length_cons]
  split <;> simp_all [wlp_ite, wlp_fail, wlp_bind, wlp_adv, wlp_pure, wlp_consume] <;> (try split) <;> (try simp_all) <;> omega

theorem cheap_postfixLoop (h : Cheap N r) (a : Ast) : CheapBody N (.postfixLoop a) (body r (.postfixLoop a)) := by
  intro s hf hn
  simp only [body, pPostfixLoop, wlp_bind, wlp_peek]
  intro t ts hs
  rw [hs] at hf hn ⊢
  have hh := hf.head
  have ht := hf.tail
  simp only [rate, extra, List.length_cons] at *
  have step : ∀ a, wlp (r (.postfixLoop a)) (fun _ s' => Flat s'.toks ∧ s'.toks.length ≤ ts.length + 1 ∧ s'.steps + 30 * s'.toks.length + 1 ≤ s.steps + 30 * (ts.length + 1) + 1)
      (fun s' => s'.steps + 1 ≤ s.steps + 30 * (ts.length + 1) + 1) { s with toks := ts } := by
    intro a
    refine wlp_mono (h (.postfixLoop a) { s with toks := ts } trivial ht (by simp; omega)) ?_ ?_
    · intro b s' ⟨h1, h2, h3⟩
      simp only [rate, extra] at h2 h3
      exact ⟨h1, by omega, by omega⟩
    · intro s' h3
      simp only [rate, extra] at h3
      omega
  have mem : ∀ T, wlp (pMember r T a) (fun _ s' => Flat s'.toks ∧ s'.toks.length ≤ ts.length + 1 ∧ s'.steps + 30 * s'.toks.length + 1 ≤ s.steps + 30 * (ts.length + 1) + 1)
      (fun s' => s'.steps + 1 ≤ s.steps + 30 * (ts.length + 1) + 1) s := by
    intro T
    simp only [pMember, wlp_bind, wlp_adv, wlp_peek, hs, List.tail_cons]
    intro t' ts' hs'
    subst hs'
    split
    · simp only [wlp_bind, wlp_adv, List.tail_cons]
      refine wlp_mono (h (.postfixLoop _) { s with toks := ts' } trivial ht.tail (by simp at *; omega)) ?_ ?_
      · intro b s' ⟨h1, h2, h3⟩
        simp only [rate, extra, List.length_cons] at h2 h3 ⊢
        exact ⟨h1, by omega, by omega⟩
      · intro s' h3
        simp only [rate, extra, List.length_cons] at h3 ⊢
        omega
    · simp only [wlp_fail]; omega
  split
  · exact absurd rfl hh.2
  · exact absurd rfl hh.1
  · exact mem _
  · exact mem _
  · simp only [wlp_bind, wlp_adv, hs, List.tail_cons]; exact step _
  · simp only [wlp_bind, wlp_adv, hs, List.tail_cons]; exact step _
  · simp only [wlp_pure, hs]; exact ⟨hf, by simp, by simp⟩

theorem cheap_postfixE (h : Cheap N r) : CheapBody N .postfixE (body r .postfixE) := by
  intro s hf hn
  simp only [body, wlp_bind]
  refine wlp_mono (h .primary s trivial hf hn) ?_ ?_
  · intro a s1 ⟨h1, h2, h3⟩
    simp only [rate, extra] at h3 ⊢
    refine wlp_mono (h (.postfixLoop a) s1 trivial h1 (by omega)) ?_ ?_
    · intro b s' ⟨h4, h5, h6⟩
      simp only [rate, extra] at h6
      exact ⟨h4, by omega, by omega⟩
    · intro s' h6
      simp only [rate, extra] at h6
      omega
  · intro s' h3
    simp only [rate, extra] at h3 ⊢
    omega

theorem cheap_unary (h : Cheap N r) : CheapBody N .unary (body r .unary) := by
  intro s hf hn
  simp only [body, pUnary, wlp_bind, wlp_peek]
  intro t ts hs
  have hl : s.toks.length = ts.length + 1 := by rw [hs]; rfl
  have ht : Flat ts := by rw [hs] at hf; exact hf.tail
  simp only [rate, extra]
  have sub : ∀ nt, nt = .unary ∨ nt = .cast → wlp (r nt) (fun _ s' => Flat s'.toks ∧ s'.toks.length ≤ s.toks.length ∧ s'.steps + 30 * s'.toks.length + 1 ≤ s.steps + 30 * s.toks.length + 4)
      (fun s' => s'.steps + 1 ≤ s.steps + 30 * s.toks.length + 4) { s with toks := ts } := by
    intro nt hnt
    refine wlp_mono (h nt { s with toks := ts } (by rcases hnt with rfl | rfl <;> trivial) ht (by simp; omega)) ?_ ?_
    · rcases hnt with rfl | rfl
      all_goals
        intro b s' ⟨h1, h2, h3⟩
        simp only [rate, extra] at h2 h3
        exact ⟨h1, by omega, by omega⟩
    · rcases hnt with rfl | rfl
      all_goals
        intro s' h3
        simp only [rate, extra] at h3
        omega
  split
  · simp only [wlp_bind, wlp_adv, hs, List.tail_cons, wlp_pure]; simpa only [hs] using sub _ (.inl rfl)
  · split
    · simp only [wlp_bind, wlp_adv, hs, List.tail_cons, wlp_pure]; simpa only [hs] using sub _ (.inr rfl)
    · simp only [wlp_ite]
      split
      · rename_i hk
        subst hk
        simp only [pSizeof, wlp_bind, wlp_consume]
        intro t' ts' hs'
        rw [hs] at hs'
        obtain ⟨rfl, rfl⟩ := List.cons.inj hs'
        simp only [if_pos, wlp_getToks, wlp_try]
        refine wlp_mono (h .unary { s with toks := ts } trivial ht (by simp; omega)) ?_ ?_
        · intro a s' ⟨h1, h2, h3⟩
          simp only [rate, extra] at h2 h3
          simp only [wlp_pure]
          exact ⟨h1, by omega, by omega⟩
        · intro s' h3
          simp only [rate, extra] at h3
          simp only [wlp_bind, wlp_setToks, wlp_consume]
          intro t' ts' hs'
          subst hs'
          rw [if_neg ht.head.1]
          omega
      · refine wlp_mono (h .postfixE s trivial hf hn) ?_ ?_
        · intro a s' ⟨h1, h2, h3⟩
          simp only [rate, extra] at h2 h3
          exact ⟨h1, by omega, by omega⟩
        · intro s' h3
          simp only [rate, extra] at h3
          omega

theorem cheap_castLoop (h : Cheap N r) (l : List Ast) : CheapBody N (.castLoop l) (body r (.castLoop l)) := by
  intro s hf hn
  simp only [body, pCastLoop, wlp_bind, wlp_getToks, wlp_peek]
  intro t ts hs
  have hh : t ≠ .punct .lparen := by rw [hs] at hf; exact hf.head.1
  rw [if_neg hh]
  simp only [pCastLoop.rest, wlp_bind, wlp_pure]
  refine wlp_mono (h .unary s trivial hf hn) ?_ ?_
  · intro a s' ⟨h1, h2, h3⟩
    simp only [rate, extra] at h2 h3 ⊢
    exact ⟨h1, by omega, by omega⟩
  · intro s' h3
    simp only [rate, extra] at h3 ⊢
    omega

theorem cheap_cast (h : Cheap N r) : CheapBody N .cast (body r .cast) := by
  intro s hf hn
  simp only [body]
  refine wlp_mono (h (.castLoop []) s trivial hf hn) ?_ ?_
  · intro a s' ⟨h1, h2, h3⟩
    simp only [rate, extra] at h2 h3 ⊢
    exact ⟨h1, by omega, by omega⟩
  · intro s' h3
    simp only [rate, extra] at h3 ⊢
    omega

theorem cheap_next (h : Cheap N r) (l : Nat) (hl : l ≤ 9) (s : PS) (hf : Flat s.toks) (hn : s.toks.length ≤ N) :
    wlp (pBin.next r l) (fun _ s' => Flat s'.toks ∧ s'.toks.length ≤ s.toks.length ∧ s'.steps + 30 * s'.toks.length + 2 ≤ s.steps + 30 * s.toks.length + (26 - 2 * l))
      (fun s' => s'.steps + 2 ≤ s.steps + 30 * s.toks.length + (26 - 2 * l)) s := by
  unfold pBin.next
  simp only [wlp_ite]
  split
  · refine wlp_mono (h (.bin (l + 1)) s (by simp only [flatNT]; omega) hf hn) ?_ ?_
    · intro a s' ⟨h1, h2, h3⟩
      simp only [rate, extra] at h2 h3
      exact ⟨h1, by omega, by omega⟩
    · intro s' h3
      simp only [rate, extra] at h3
      omega
  · refine wlp_mono (h .cast s trivial hf hn) ?_ ?_
    · intro a s' ⟨h1, h2, h3⟩
      simp only [rate, extra] at h2 h3
      exact ⟨h1, by omega, by omega⟩
    · intro s' h3
      simp only [rate, extra] at h3
      omega

theorem cheap_bin (h : Cheap N r) (l : Nat) (hl : l ≤ 9) : CheapBody N (.bin l) (body r (.bin l)) := by
  intro s hf hn
  simp only [body, pBin, wlp_bind]
  refine wlp_mono (cheap_next h l hl s hf hn) ?_ ?_
  · intro a s1 ⟨h1, h2, h3⟩
    refine wlp_mono (h (.binLoop l a) s1 trivial h1 (by omega)) ?_ ?_
    · intro b s' ⟨h4, h5, h6⟩
      simp only [rate, extra] at h6 ⊢
      exact ⟨h4, by omega, by omega⟩
    · intro s' h6
      simp only [rate, extra] at h6 ⊢
      omega
  · intro s' h3
    simp only [rate, extra] at h3 ⊢
    omega

theorem binOp_le {l : Nat} {t : Tok} {o : AstT} (h : binOp l t = some o) : l ≤ 9 := by
  unfold binOp at h
  split at h <;> first | omega | contradiction

theorem cheap_binLoop (h : Cheap N r) (l : Nat) (acc : Ast) : CheapBody N (.binLoop l acc) (body r (.binLoop l acc)) := by
  intro s hf hn
  simp only [body, pBinLoop, wlp_bind, wlp_peek]
  intro t ts hs
  have hl : s.toks.length = ts.length + 1 := by rw [hs]; rfl
  have ht : Flat ts := by rw [hs] at hf; exact hf.tail
  split
  · rename_i op hop
    simp only [wlp_bind, wlp_adv, hs, List.tail_cons]
    refine wlp_mono (cheap_next h l (binOp_le hop) { s with toks := ts } ht (by simp; omega)) ?_ ?_
    · intro b s1 ⟨h1, h2, h3⟩
      simp only at h2 h3
      refine wlp_mono (h (.binLoop l _) s1 trivial h1 (by omega)) ?_ ?_
      · intro b s' ⟨h4, h5, h6⟩
        simp only [rate, extra, List.length_cons] at h6 ⊢
        exact ⟨h4, by omega, by omega⟩
      · intro s' h6
        simp only [rate, extra, List.length_cons] at h6 ⊢
        omega
    · intro s' h3
      simp only [rate, extra, List.length_cons] at h3 ⊢
      omega
  · simp only [wlp_pure, rate, extra]
    exact ⟨hf, by omega, by omega⟩

/-- from the cheap rate to the expensive one -/
theorem rate_up {a b x y c W : Nat} (hw : 30 ≤ W) (hxy : y ≤ x) (h : a + 30 * y ≤ b + 30 * x + c) : a + W * y ≤ b + W * x + c := by
  obtain ⟨d, rfl⟩ : ∃ d, x = y + d := ⟨x - y, by omega⟩
  have := Nat.mul_le_mul_right d hw
  rw [Nat.mul_add] at *
  omega

theorem cheap_cond (h : Cheap N r) : CheapBody N .cond (body r .cond) := by
  intro s hf hn
  simp only [body, pCond, wlp_bind]
  generalize hK : 30 * N + 40 = K
  refine wlp_mono (h (.bin 0) s (by simp [flatNT]) hf hn) ?_ ?_
  · intro a s1 ⟨h1, h2, h3⟩
    simp only [rate, extra] at h3
    have h3 := rate_up (W := 5 * K) (by omega) h2 h3
    simp only [wlp_peek]
    intro t ts hs
    have hl : s1.toks.length = ts.length + 1 := by rw [hs]; rfl
    have ht : Flat ts := by rw [hs] at h1; exact h1.tail
    rw [hl, Nat.mul_add] at h3
    simp only [wlp_ite]
    split
    · simp only [wlp_bind, wlp_adv, hs, List.tail_cons]
      refine wlp_mono (h .assign { s1 with toks := ts } trivial ht (by simp; omega)) ?_ ?_
      · intro b s2 ⟨h4, h5, h6⟩
        simp only [rate, extra, hK] at h5 h6
        simp only [wlp_consume]
        intro t2 ts2 hs2
        have hl2 : s2.toks.length = ts2.length + 1 := by rw [hs2]; rfl
        have ht2 : Flat ts2 := by rw [hs2] at h4; exact h4.tail
        split
        · rw [hl2, Nat.mul_add] at h6
          refine wlp_mono (h .cond { s2 with toks := ts2 } trivial ht2 (by simp; omega)) ?_ ?_
          · intro d s' ⟨h7, h8, h9⟩
            simp only [rate, extra, hK] at h8 h9
            simp only [wlp_pure, rate, extra]
            exact ⟨h7, by omega, by omega⟩
          · intro s' h9
            simp only [rate, extra, hK] at h9 ⊢
            omega
        · simp only [rate, extra]
          omega
      · intro s' h6
        simp only [rate, extra, hK] at h6 ⊢
        omega
    · simp only [wlp_pure, rate, extra, hl, Nat.mul_add]
      refine ⟨h1, by omega, by omega⟩
  · intro s' h3
    simp only [rate, extra] at h3 ⊢
    have := Nat.mul_le_mul_right s.toks.length (show 30 ≤ 5 * K by omega)
    omega

theorem cheap_assignLoop (h : Cheap N r) (l : List (AstT × Ast)) : CheapBody N (.assignLoop l) (body r (.assignLoop l)) := by
  intro s hf hn
  simp only [body, pAssignLoop, wlp_bind, wlp_getToks, wlp_try]
  generalize hK : 30 * N + 40 = K
  have rest : ∀ s1 : PS, s1.steps ≤ s.steps + 30 * N + 4 →
      wlp (pAssignLoop.rest r l) (fun _ s' => Flat s'.toks ∧ s'.toks.length ≤ s.toks.length ∧
        s'.steps + rate K (.assignLoop l) * s'.toks.length + 1 ≤ s.steps + rate K (.assignLoop l) * s.toks.length + extra K (.assignLoop l))
      (fun s' => s'.steps + 1 ≤ s.steps + rate K (.assignLoop l) * s.toks.length + extra K (.assignLoop l)) { s1 with toks := s.toks } := by
    intro s1 hs1
    simp only [pAssignLoop.rest, wlp_bind, wlp_pure]
    refine wlp_mono (h .cond { s1 with toks := s.toks } trivial hf hn) ?_ ?_
    · intro a s' ⟨h1, h2, h3⟩
      simp only [rate, extra, hK] at h2 h3 ⊢
      exact ⟨h1, by omega, by omega⟩
    · intro s' h3
      simp only [rate, extra, hK] at h3 ⊢
      omega
  refine wlp_mono (h .unary s trivial hf hn) ?_ ?_
  · intro a s1 ⟨h1, h2, h3⟩
    simp only [rate, extra] at h3
    simp only [wlp_bind, wlp_peek]
    intro t ts hs
    have hl : s1.toks.length = ts.length + 1 := by rw [hs]; rfl
    have ht : Flat ts := by rw [hs] at h1; exact h1.tail
    split
    · simp only [wlp_bind, wlp_adv, hs, List.tail_cons]
      have h3' := rate_up (W := 5 * K) (by omega) h2 h3
      rw [hl, Nat.mul_add] at h3'
      refine wlp_mono (h (.assignLoop _) { s1 with toks := ts } trivial ht (by simp; omega)) ?_ ?_
      · intro b s' ⟨h4, h5, h6⟩
        simp only [rate, extra, hK] at h5 h6 ⊢
        exact ⟨h4, by omega, by omega⟩
      · intro s' h6
        simp only [rate, extra, hK] at h6 ⊢
        omega
    · simp only [wlp_bind, wlp_setToks]
      exact rest s1 (by omega)
  · intro s1 h3
    simp only [rate, extra] at h3
    simp only [wlp_bind, wlp_setToks]
    exact rest s1 (by omega)

theorem cheap_assign (h : Cheap N r) : CheapBody N .assign (body r .assign) := by
  intro s hf hn
  simp only [body]
  generalize hK : 30 * N + 40 = K
  refine wlp_mono (h (.assignLoop []) s trivial hf hn) ?_ ?_
  · intro a s' ⟨h1, h2, h3⟩
    simp only [rate, extra, hK] at h2 h3 ⊢
    exact ⟨h1, by omega, by omega⟩
  · intro s' h3
    simp only [rate, extra, hK] at h3 ⊢
    omega
end

theorem cheap_count (N f : Nat) : Cheap N (count f) := by
  induction f with
  | zero => intro nt s _ _ _; exact trivial
  | succ f ih =>
    have key : ∀ nt, flatNT nt → CheapBody N nt (body (count f) nt) := by
      intro nt hnt
      cases nt <;> simp only [flatNT] at hnt
      · exact cheap_assign ih
      · exact cheap_assignLoop ih _
      · exact cheap_cond ih
      · exact cheap_bin ih _ hnt
      · exact cheap_binLoop ih _ _
      · exact cheap_cast ih
      · exact cheap_castLoop ih _
      · exact cheap_unary ih
      · exact cheap_postfixE ih
      · exact cheap_postfixLoop ih _
      · exact cheap_primary
    intro nt s hnt hf hn
    have := key nt hnt { s with steps := s.steps + 1 } hf hn
    refine wlp_mono this ?_ ?_
    · intro a s' ⟨h1, h2, h3⟩
      refine ⟨h1, h2, ?_⟩
      simp only at h3
      omega
    · intro s' h3
      simp only at h3
      omega

end Parser
end Umlcc
