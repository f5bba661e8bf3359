import Verif.Lemma.PlainStmt
/-!
The part of `Spec/Plain.lean` grows with the number of arguments allowed (helper lemmas).
-/
namespace Umlcc
namespace Plain

theorem few_mono {m m' n : Nat} (h : m ≤ m') (hp : few (some m) n = true) : few (some m') n = true := by
  simp only [few, Bool.and_eq_true, decide_eq_true_eq] at hp ⊢
  omega

theorem callee_mono {m m' n : Nat} (h : m ≤ m') {Γ : Types} {f : SExpr} (hp : callee (some m) Γ f n = true) : callee (some m') Γ f n = true := by
  simp only [callee, Bool.and_eq_true] at hp ⊢
  exact ⟨⟨⟨few_mono h hp.1.1.1, hp.1.1.2⟩, hp.1.2⟩, hp.2⟩

mutual
theorem callVal_mono {m m' : Nat} (h : m ≤ m') {Γ : Types} : ∀ (e : SExpr) {o : Option DType}, callVal (some m) Γ o e = true → callVal (some m') Γ o e = true
  | .call t f as, o, hp => by
    simp only [callVal, Bool.and_eq_true] at hp ⊢
    exact ⟨⟨⟨⟨callee_mono h hp.1.1.1.1, callArgs_mono h as hp.1.1.1.2⟩, hp.1.1.2⟩, hp.1.2⟩, hp.2⟩
  | .bin op t l r, o, hp => by
    simp only [callVal, Bool.and_eq_true, Bool.or_eq_true] at hp ⊢
    exact ⟨hp.1, hp.2.imp (fun q => ⟨callVal_mono h l q.1, q.2⟩) fun q => ⟨⟨rfl, q.1.2⟩, q.2.imp_left (callVal_mono h l)⟩⟩
  | .un .neg t e, o, hp | .un .not t e, o, hp => by
    simp only [callVal, Bool.and_eq_true] at hp ⊢
    exact ⟨⟨callVal_mono h e hp.1.1, hp.1.2⟩, hp.2⟩
  | .un .cast t e, o, hp => by
    simp only [callVal] at hp ⊢
    exact callVal_mono h e hp
  | .ident .., _, hp | .str .., _, hp | .cond .., _, hp | .ilit .., _, hp | .tomember .., _, hp
  | .un .addr .., _, hp | .un .preinc .., _, hp | .un .predec .., _, hp | .un .postinc .., _, hp | .un .postdec .., _, hp | .un .indir .., _, hp
  | .un .pos .., _, hp | .un .lnot .., _, hp => by simp [callVal] at hp
theorem callArgs_mono {m m' n : Nat} (h : m ≤ m') {Γ : Types} : ∀ (as : SArgs), callArgs (some m) Γ n as = true → callArgs (some m') Γ n as = true
  | .nil, _ => rfl
  | .cons e as, hp => by
    simp only [callArgs, Bool.and_eq_true, Bool.or_eq_true] at hp ⊢
    exact ⟨hp.1.imp_right fun q => ⟨⟨q.1.1, callVal_mono h e q.1.2⟩, q.2⟩, callArgs_mono h as hp.2⟩
end

theorem callCmp_mono {m m' : Nat} (h : m ≤ m') {Γ : Types} {e : SExpr} (hp : callCmp (some m) Γ e = true) : callCmp (some m') Γ e = true := by
  unfold callCmp at hp
  split at hp
  · simp only [callCmp, Bool.and_eq_true] at hp ⊢
    exact ⟨⟨⟨hp.1.1.1, callVal_mono h _ hp.1.1.2⟩, hp.1.2⟩, hp.2⟩
  · cases hp

theorem plainTest_mono {m m' : Nat} (h : m ≤ m') {Γ : Types} {e : SExpr} (hp : plainTest (some m) Γ e = true) : plainTest (some m') Γ e = true := by
  revert hp
  fun_induction plainTest (some m) Γ e with
  | case1 t l r h1 h2 =>
    simp only [plainTest, Bool.and_eq_true]
    exact fun hp => ⟨⟨h1 hp.1.1, h2 hp.1.2⟩, hp.2⟩
  | case2 t l r h1 h2 =>
    simp only [plainTest, Bool.and_eq_true]
    exact fun hp => ⟨⟨h1 hp.1.1, h2 hp.1.2⟩, hp.2⟩
  | case3 t c l r h1 =>
    simp only [plainTest, Bool.and_eq_true]
    exact fun hp => ⟨⟨⟨⟨h1 hp.1.1.1.1, hp.1.1.1.2⟩, hp.1.1.2⟩, hp.1.2⟩, hp.2⟩
  | case4 =>
    rw [plainTest] <;> try assumption
    simp only [Bool.or_eq_true]
    exact fun hp => hp.imp (·.imp_right (callVal_mono h _)) (callCmp_mono h)

theorem callUsed_mono {m m' : Nat} (h : m ≤ m') {Γ : Types} {e : SExpr} (hp : callUsed (some m) Γ e = true) : callUsed (some m') Γ e = true := by
  simp only [callUsed, Bool.or_eq_true, Bool.and_eq_true] at hp ⊢
  exact hp.imp (callVal_mono h _) fun hp => ⟨hp.1, plainTest_mono h hp.2⟩

theorem callStmt_mono {m m' : Nat} (h : m ≤ m') {Γ : Types} {e : SExpr} (hp : callStmt (some m) Γ e = true) : callStmt (some m') Γ e = true := by
  unfold callStmt at hp
  split at hp
  · simp only [callStmt, Bool.and_eq_true] at hp ⊢
    exact ⟨⟨callee_mono h hp.1.1, callArgs_mono h _ hp.1.2⟩, hp.2⟩
  · simp only [callStmt, Bool.and_eq_true] at hp ⊢
    exact ⟨⟨⟨callUsed_mono h hp.1.1.1, hp.1.1.2⟩, hp.1.2⟩, hp.2⟩
  · cases hp

theorem plainVal_mono {m m' : Nat} (h : m ≤ m') {Γ : Types} {e : SExpr} (hp : plainVal (some m) Γ e = true) : plainVal (some m') Γ e = true := by
  simp only [plainVal, Bool.or_eq_true] at hp ⊢
  exact hp.imp_right (callUsed_mono h)

mutual
theorem plainInit_mono {m m' : Nat} (h : m ≤ m') {Γ : Types} : ∀ (i : SInit) {t : DType}, plainInit (some m) Γ i t = true → plainInit (some m') Γ i t = true
  | .expr e, t, hp => by
    simp only [plainInit, Bool.and_eq_true] at hp ⊢
    exact ⟨plainVal_mono h hp.1, hp.2⟩
  | .list is, t, hp => by
    cases t <;> simp only [plainInit] at hp ⊢ <;> first | exact plainInits_mono h is hp | cases hp
  | .str _ _, t, hp => by
    simp only [plainInit, Bool.and_eq_true] at hp ⊢
    exact ⟨rfl, hp.2⟩
theorem plainInits_mono {m m' : Nat} (h : m ≤ m') {Γ : Types} {u : DType} : ∀ (is : SInits), plainInits (some m) Γ u is = true → plainInits (some m') Γ u is = true
  | .nil, _ => by simp only [plainInits]
  | .cons i is, hp => by
    simp only [plainInits, Bool.and_eq_true] at hp ⊢
    exact ⟨plainInit_mono h i hp.1, plainInits_mono h is hp.2⟩
end

theorem plainDecl_mono {m m' : Nat} (h : m ≤ m') {Γ : Types} {d : SDecl} (hp : plainDecl (some m) Γ d = true) : plainDecl (some m') Γ d = true := by
  unfold plainDecl at hp ⊢
  rw [Bool.and_eq_true] at hp ⊢
  refine ⟨hp.1, ?_⟩
  have := hp.2
  split
  · rfl
  · rename_i i he
    rw [he] at this
    simp only [Bool.and_eq_true] at this ⊢
    exact ⟨plainInit_mono h i this.1, this.2⟩

theorem plainDecls_mono {m m' : Nat} (h : m ≤ m') : ∀ {ds : List SDecl} {Γ : Types}, plainDecls (some m) Γ ds = true → plainDecls (some m') Γ ds = true
  | [], _, _ => rfl
  | d :: ds, Γ, hp => by
    simp only [plainDecls, Bool.and_eq_true] at hp ⊢
    exact ⟨plainDecl_mono h hp.1, plainDecls_mono h hp.2⟩

theorem plainCond_mono {m m' : Nat} (h : m ≤ m') {Γ : Types} {s : SStmt} (hp : plainCond (some m) Γ s = true) : plainCond (some m') Γ s = true := by
  unfold plainCond at hp ⊢
  split
  · exact plainTest_mono h hp
  · rfl

mutual
theorem plainStmt_mono {m m' : Nat} (h : m ≤ m') : ∀ (s : SStmt) {Γ : Types} {q : DType}, plainStmt (some m) Γ q s = true → plainStmt (some m') Γ q s = true
  | .cmpd is, _, _, hp => by simp only [plainStmt] at hp ⊢; exact plainItems_mono h is hp
  | .case v s, _, _, hp => by simp only [plainStmt, Bool.and_eq_true] at hp ⊢; exact ⟨hp.1, plainStmt_mono h s hp.2⟩
  | .dflt s, _, _, hp => by simp only [plainStmt] at hp ⊢; exact plainStmt_mono h s hp
  | .cont, _, _, _ => by simp only [plainStmt]
  | .brk, _, _, _ => by simp only [plainStmt]
  | .null, _, _, _ => by simp only [plainStmt]
  | .ret none, _, _, _ => by simp only [plainStmt]
  | .ret (some e), _, _, hp => by simp only [plainStmt] at hp ⊢; exact plainVal_mono h hp
  | .expr e, _, _, hp => by simp only [plainStmt, Bool.or_eq_true] at hp ⊢; exact hp.imp_right (callStmt_mono h)
  | .ite c t, _, _, hp => by simp only [plainStmt, Bool.and_eq_true] at hp ⊢; exact ⟨plainTest_mono h hp.1, plainStmt_mono h t hp.2⟩
  | .itee c t e, _, _, hp => by
    simp only [plainStmt, Bool.and_eq_true] at hp ⊢
    exact ⟨⟨plainTest_mono h hp.1.1, plainStmt_mono h t hp.1.2⟩, plainStmt_mono h e hp.2⟩
  | .switch c b, _, _, hp => by simp only [plainStmt, Bool.and_eq_true] at hp ⊢; exact ⟨plainVal_mono h hp.1, plainStmt_mono h b hp.2⟩
  | .while c b, _, _, hp => by simp only [plainStmt, Bool.and_eq_true] at hp ⊢; exact ⟨plainTest_mono h hp.1, plainStmt_mono h b hp.2⟩
  | .for i c n b, _, _, hp => by
    simp only [plainStmt, Bool.and_eq_true] at hp ⊢
    exact ⟨⟨⟨plainItem_mono h i hp.1.1.1, plainCond_mono h hp.1.1.2⟩, plainStmt_mono h n hp.1.2⟩, plainStmt_mono h b hp.2⟩
theorem plainItem_mono {m m' : Nat} (h : m ≤ m') : ∀ (i : SItem) {Γ : Types} {q : DType}, plainItem (some m) Γ q i = true → plainItem (some m') Γ q i = true
  | .stmt s, _, _, hp => by simp only [plainItem] at hp ⊢; exact plainStmt_mono h s hp
  | .decls ds, _, _, hp => by simp only [plainItem] at hp ⊢; exact plainDecls_mono h hp
  | .tag _ _, _, _, hp => by simp only [plainItem] at hp ⊢; exact hp
theorem plainItems_mono {m m' : Nat} (h : m ≤ m') : ∀ (is : SItems) {Γ : Types} {q : DType}, plainItems (some m) Γ q is = true → plainItems (some m') Γ q is = true
  | .nil, _, _, _ => by simp only [plainItems]
  | .cons i is, _, _, hp => by simp only [plainItems, Bool.and_eq_true] at hp ⊢; exact ⟨plainItem_mono h i hp.1, plainItems_mono h is hp.2⟩
end

/-- smaller objects leave more room for arguments -/
theorem plainIn_mono {each size size' : Nat} {ps : Params} {b : SItems} (h : size' ≤ size) (hp : plainIn each size ps b = true) : plainIn each size' ps b = true := by
  simp only [plainIn, Bool.or_eq_true, Bool.and_eq_true, decide_eq_true_eq] at hp ⊢
  rcases hp with ⟨h1, h2⟩ | ⟨⟨h1, h2⟩, h3⟩
  · exact .inl ⟨h1, by omega⟩
  · exact .inr ⟨⟨h1, plainItems_mono (Nat.div_le_div_right (by omega)) _ h2⟩, by omega⟩

end Plain
end Umlcc
