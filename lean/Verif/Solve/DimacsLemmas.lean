import Verif.Solve.Dimacs
import Verif.Solve.DimacsSpec
/-
Lemmas about the DIMACS texts.
-/
set_option linter.unusedSectionVars false
namespace Verif.Solve
open Verif Verif.Pkg Verif.Dimacs Verif.Rules

/-! ### numerals -/

theorem readNat_digits : ∀ n : Nat, readNat (Nat.toDigits 10 n) = some n := by
  have hne : ∀ n, Nat.toDigits 10 n ≠ [] := fun n => Nat.toDigits_ne_nil
  have hdig : ∀ n, (Nat.toDigits 10 n).all Char.isDigit = true := by
    intro n
    rw [List.all_eq_true]
    intro c hc
    exact Nat.isDigit_of_mem_toDigits (by decide) (by decide) hc
  have hval : ∀ d, d < 10 → (Nat.digitChar d).toNat - 48 = d := by decide
  have hfold : ∀ n, (Nat.toDigits 10 n).foldl (fun n c => 10 * n + (c.toNat - 48)) 0 = n := by
    intro n
    induction n using Nat.strongRecOn with
    | ind n ih =>
      rw [Nat.toDigits_eq_if (by decide)]
      split
      · next h => simp [hval n h]
      · next h =>
        rw [List.foldl_append, ih (n / 10) (by omega)]
        simp only [List.foldl_cons, List.foldl_nil]
        rw [hval (n % 10) (by omega)]
        omega
  intro n
  unfold readNat
  rw [if_pos ⟨hne n, hdig n⟩, hfold]

theorem intText_nat (n : Nat) : intText (n : Int) = Nat.toDigits 10 n := by
  show (Nat.repr n).toList = _
  rw [Nat.toList_repr]

theorem intText_neg (n : Nat) : intText (-((n + 1 : Nat) : Int)) = '-' :: Nat.toDigits 10 (n + 1) := by
  show ("-" ++ Nat.repr (n + 1)).toList = _
  rw [String.toList_append, Nat.toList_repr]
  rfl

theorem digits_chars {n : Nat} {c : Char} (h : c ∈ Nat.toDigits 10 n) : c.isDigit = true :=
  Nat.isDigit_of_mem_toDigits (by decide) (by decide) h

theorem intText_cases (i : Int) : (∃ n : Nat, i = n ∧ intText i = Nat.toDigits 10 n) ∨
    ∃ n : Nat, i = -(n : Int) ∧ 0 < n ∧ intText i = '-' :: Nat.toDigits 10 n := by
  cases i with
  | ofNat n => exact Or.inl ⟨n, rfl, intText_nat n⟩
  | negSucc n => exact Or.inr ⟨n + 1, rfl, by omega, intText_neg n⟩

theorem intText_chars {i : Int} {c : Char} (h : c ∈ intText i) : c = '-' ∨ c.isDigit = true := by
  rcases intText_cases i with ⟨n, -, e⟩ | ⟨n, -, -, e⟩ <;> rw [e] at h
  · exact Or.inr (digits_chars h)
  · rcases List.mem_cons.1 h with h | h
    · exact Or.inl h
    · exact Or.inr (digits_chars h)

theorem intText_ne_nil (i : Int) : intText i ≠ [] := by
  rcases intText_cases i with ⟨n, -, e⟩ | ⟨n, -, -, e⟩ <;> rw [e]
  · exact Nat.toDigits_ne_nil
  · simp

theorem readNat_intText (n : Nat) : readNat (intText n) = some n := by
  rw [intText_nat, readNat_digits]

theorem readInt_intText (i : Int) : readInt (intText i) = some i := by
  rcases intText_cases i with ⟨n, rfl, e⟩ | ⟨n, rfl, -, e⟩
  · rw [e]
    cases h : Nat.toDigits 10 n with
    | nil => exact absurd h Nat.toDigits_ne_nil
    | cons c rest =>
      have hc : c ≠ '-' := by
        rintro rfl
        have : '-' ∈ Nat.toDigits 10 n := by rw [h]; simp
        exact absurd (digits_chars this) (by decide)
      unfold readInt
      simp only [hc, if_false]
      rw [← h, readNat_digits]
      rfl
  · rw [e]
    unfold readInt
    simp only [if_true]
    rw [readNat_digits]
    rfl

/-! ### cutting -/

theorem cut_ne_nil (c : Char) (s : List Char) : cut c s ≠ [] := by
  cases s with
  | nil => simp [cut]
  | cons x xs =>
    unfold cut
    split
    · simp
    · split <;> simp

theorem cut_none {c : Char} {s : List Char} (h : c ∉ s) : cut c s = [s] := by
  induction s with
  | nil => rfl
  | cons x xs ih =>
    simp only [List.mem_cons, not_or] at h
    rw [cut, if_neg (fun e => h.1 e.symm), ih h.2]

theorem cut_append {c : Char} {s t : List Char} (h : c ∉ s) : cut c (s ++ c :: t) = s :: cut c t := by
  induction s with
  | nil => simp [cut]
  | cons x xs ih =>
    simp only [List.mem_cons, not_or] at h
    rw [List.cons_append, cut, if_neg (fun e => h.1 e.symm), ih h.2]

theorem cut_join {c : Char} : ∀ {ls : List (List Char)}, ls ≠ [] → (∀ l ∈ ls, c ∉ l) → cut c (joinWith [c] ls) = ls
  | [], h, _ => absurd rfl h
  | [l], _, h => cut_none (h l (by simp))
  | l :: m :: ls, _, h => by
    have : joinWith [c] (l :: m :: ls) = l ++ c :: joinWith [c] (m :: ls) := by
      rw [joinWith, List.append_assoc]; rfl
    rw [this, cut_append (h l (by simp)), cut_join (by simp) (fun x hx => h x (by simp [hx]))]

/-! ### the lines -/

theorem mem_joinWith {sep : List Char} : ∀ {ls : List (List Char)} {c : Char}, c ∈ joinWith sep ls → c ∈ sep ∨ ∃ l ∈ ls, c ∈ l
  | [], c, h => by simp [joinWith] at h
  | [l], c, h => Or.inr ⟨l, by simp, h⟩
  | l :: m :: ls, c, h => by
    rw [joinWith, List.mem_append, List.mem_append] at h
    rcases h with (h | h) | h
    · exact Or.inr ⟨l, by simp, h⟩
    · exact Or.inl h
    · rcases mem_joinWith h with h | ⟨x, hx, h⟩
      · exact Or.inl h
      · exact Or.inr ⟨x, by simp only [List.mem_cons] at hx ⊢; exact Or.inr hx, h⟩

theorem clauseWords (lits : List Int) : words [dimacsClause lits] = lits.map intText ++ [['0']] := by
  unfold words dimacsClause
  rw [List.flatMap_singleton, cut_join (by simp)]
  · rw [List.filter_eq_self.2]
    intro w hw
    simp only [List.mem_append, List.mem_map, List.mem_singleton] at hw
    rcases hw with ⟨i, -, rfl⟩ | rfl
    · simp [intText_ne_nil]
    · simp
  · intro w hw
    simp only [List.mem_append, List.mem_map, List.mem_singleton] at hw
    rcases hw with ⟨i, -, rfl⟩ | rfl
    · intro h
      rcases intText_chars h with h | h <;> exact absurd h (by decide)
    · decide

theorem words_append (a b : List (List Char)) : words (a ++ b) = words a ++ words b := by
  unfold words
  rw [List.flatMap_append, List.filter_append]

theorem allWords : ∀ cs : List (List Int), words (cs.map dimacsClause) = cs.flatMap (fun c => c.map intText ++ [['0']])
  | [] => rfl
  | c :: cs => by
    rw [List.map_cons, ← List.singleton_append, words_append, clauseWords, allWords cs, List.flatMap_cons]

theorem mapM_append' {α β : Type} {f : α → Option β} : ∀ {a b : List α} {x y : List β}, a.mapM f = some x → b.mapM f = some y →
    (a ++ b).mapM f = some (x ++ y) := by
  intro a b x y ha hb
  rw [List.mapM_append, ha, hb]
  rfl

theorem readLits : ∀ lits : List Int, (lits.map intText).mapM readInt = some lits
  | [] => rfl
  | l :: ls => by
    rw [List.map_cons, List.mapM_cons, readInt_intText, readLits ls]
    rfl

theorem readNumbers : ∀ cs : List (List Int), (cs.flatMap (fun c => c.map intText ++ [['0']])).mapM readInt =
    some (cs.flatMap (fun c => c ++ [0]))
  | [] => rfl
  | c :: cs => by
    rw [List.flatMap_cons, List.flatMap_cons]
    exact mapM_append' (mapM_append' (readLits c) (by rfl)) (readNumbers cs)

theorem readClauses_one {c : List Int} (hc : ∀ l ∈ c, l ≠ 0) {rest : List Int} {cs : List (List Int)}
    (h : readClauses rest = some cs) : readClauses (c ++ 0 :: rest) = some (c :: cs) := by
  induction c with
  | nil => simp [readClauses, h]
  | cons x xs ih =>
    rw [List.cons_append, readClauses, if_neg (hc x (by simp)), ih (fun l hl => hc l (by simp [hl]))]

theorem readClauses_all : ∀ {cs : List (List Int)}, (∀ c ∈ cs, ∀ l ∈ c, l ≠ 0) →
    readClauses (cs.flatMap (fun c => c ++ [0])) = some cs
  | [], _ => rfl
  | c :: cs, h => by
    rw [List.flatMap_cons, List.append_assoc, List.singleton_append]
    exact readClauses_one (h c (by simp)) (readClauses_all (fun d hd => h d (by simp [hd])))

/-! ### JSON -/

theorem hex_value {n : Nat} (h : n < 65536) : HexValue ((jsonHex n).drop 2) n := by
  refine ⟨n / 4096 % 16, n / 256 % 16, n / 16 % 16, n % 16, ?_, ?_, ?_, ?_, rfl, ?_⟩ <;> omega

theorem jsonHex_eq (n : Nat) : jsonHex n = '\\' :: 'u' :: (jsonHex n).drop 2 := rfl

theorem jsonChar_standsFor (c : Char) : StandsFor (jsonChar c) c := by
  unfold jsonChar
  split
  · next h => subst h; exact .quote
  split
  · next h => subst h; exact .backslash
  split
  · next h => subst h; exact .newline
  split
  · next h => subst h; exact .ret
  split
  · next h => subst h; exact .tab
  split
  · next h => subst h; exact .feed
  split
  · next h => subst h; exact .back
  split
  · next h1 h2 _ _ _ _ _ h => exact .plain c h1 h2 h.1
  split
  · next h => rw [jsonHex_eq]; exact .code _ c (hex_value h)
  · next h =>
    have hv : c.toNat < 1114112 := by
      have := c.valid
      unfold UInt32.isValidChar Nat.isValidChar at this
      show c.val.toNat < _
      omega
    rw [jsonHex_eq (55296 + _), jsonHex_eq (56320 + _)]
    exact .pair _ _ c ((c.toNat - 65536) / 1024) ((c.toNat - 65536) % 1024) (hex_value (by omega)) (hex_value (by omega))
      (by omega) (by omega) (by omega)

theorem jsonString_spec (s : List Char) : JsonString (jsonString s) s := by
  refine ⟨s.map jsonChar, ?_, ?_⟩
  · induction s with
    | nil => exact .nil
    | cons c s ih => exact .cons (jsonChar_standsFor c) ih
  · unfold jsonString
    rw [List.flatMap_def]
    rfl

theorem hexDigit_ne : ∀ n, n < 16 → n.digitChar ≠ '\n' := by decide

theorem jsonChar_newline (c : Char) : '\n' ∉ jsonChar c := by
  have hx : ∀ n, '\n' ∉ jsonHex n := by
    intro n h
    unfold jsonHex at h
    simp only [List.mem_cons, List.not_mem_nil, or_false] at h
    rcases h with h | h | h | h | h | h
    · exact absurd h (by decide)
    · exact absurd h (by decide)
    all_goals exact hexDigit_ne _ (Nat.mod_lt _ (by decide)) h.symm
  unfold jsonChar
  intro h
  split at h
  · simp at h
  split at h
  · simp at h
  split at h
  · simp at h
  next hn =>
  split at h
  · simp at h
  split at h
  · simp at h
  split at h
  · simp at h
  split at h
  · simp at h
  split at h
  · simp only [List.mem_singleton] at h; exact hn h.symm
  split at h
  · exact hx _ h
  · rcases List.mem_append.1 h with h | h <;> exact hx _ h

theorem jsonString_newline (s : List Char) : '\n' ∉ jsonString s := by
  unfold jsonString
  intro h
  simp only [List.mem_cons, List.mem_append, List.mem_flatMap, List.not_mem_nil, or_false] at h
  rcases h with h | ⟨c, -, h⟩ | h
  · exact absurd h (by decide)
  · exact jsonChar_newline c h
  · exact absurd h (by decide)

/-! ### the clauses of the solver -/

open Verif.Sat in
theorem addRules_clauses : ∀ (G : List (List Int)) (i : Nat) {s s' : Solver}, (∀ c ∈ s.clauses, c < s.nextId) →
    s.addRules i G = .ok s' → clauseLists s' = clauseLists s ++ (nonempty G).map fromkeys
  | [], i, s, s', _, h => by
    simp only [Solver.addRules] at h
    cases h
    simp [nonempty]
  | c :: G, i, s, s', hs, h => by
    rw [Solver.addRules] at h
    cases h1 : s.addClause c (some i) with
    | error e => rw [h1] at h; simp at h
    | ok s1 =>
      rw [h1] at h
      have key : (∀ x ∈ s1.clauses, x < s1.nextId) ∧ clauseLists s1 = clauseLists s ++ (nonempty [c]).map fromkeys := by
        have hheap : ∀ x ∈ s.clauses, (fset s.heap s.nextId (Clause.new c false (some i)) x).lits = (s.heap x).lits := by
          intro x hx
          have := hs x hx
          unfold fset; rw [if_neg (by omega)]
        have hnew : (fset s.heap s.nextId (Clause.new c false (some i)) s.nextId).lits = fromkeys c := by
          rw [fset_same]; rfl
        unfold Solver.addClause Solver.alloc Solver.addClauseObj at h1
        simp only [Solver.litsOf, hnew] at h1
        have lists : ∀ s2 : Solver, s2.heap = fset s.heap s.nextId (Clause.new c false (some i)) → s2.clauses = s.clauses ++ [s.nextId] →
            c ≠ [] → clauseLists s2 = clauseLists s ++ (nonempty [c]).map fromkeys := by
          intro s2 e1 e2 hne
          have : nonempty [c] = [c] := by simp [nonempty, hne]
          unfold clauseLists Solver.litsOf
          rw [this, e1, e2, List.map_append]
          congr 1
          · exact List.map_congr_left hheap
          · simp [fset_same, Clause.new]
        have ids : ∀ s2 : Solver, s2.nextId = s.nextId + 1 → s2.clauses = s.clauses ++ [s.nextId] → ∀ x ∈ s2.clauses, x < s2.nextId := by
          intro s2 e1 e2 x hx
          rw [e2, List.mem_append, List.mem_singleton] at hx
          rw [e1]
          rcases hx with hx | hx
          · have := hs x hx; omega
          · omega
        split at h1
        · next he =>
          have hc : c = [] := (Solver.fromkeys_eq_nil c).1 he
          cases h1
          refine ⟨fun x hx => Nat.lt_succ_of_lt (hs x hx), ?_⟩
          have : nonempty [c] = [] := by simp [nonempty, hc]
          rw [this, List.map_nil, List.append_nil]
          exact List.map_congr_left hheap
        · next l he =>
          have hne : c ≠ [] := by rintro rfl; simp [fromkeys] at he
          unfold Solver.enqueue at h1
          split at h1
          · next b hb =>
            cases b with
            | false => simp at h1
            | true =>
              simp only [if_true, Except.ok.injEq] at h1
              subst h1
              exact ⟨ids _ rfl rfl, lists _ rfl rfl hne⟩
          · simp only [if_true, Except.ok.injEq] at h1
            subst h1
            exact ⟨ids _ rfl rfl, lists _ rfl rfl hne⟩
        · next p q r he =>
          have hne : c ≠ [] := by rintro rfl; simp [fromkeys] at he
          simp only [Except.ok.injEq] at h1
          subst h1
          exact ⟨ids _ rfl rfl, lists _ rfl rfl hne⟩
      have := addRules_clauses G (i + 1) key.1 h
      rw [this, key.2, List.append_assoc, ← List.map_append]
      congr 2
      unfold nonempty
      rw [← List.filter_append]
      rfl

open Verif.Sat in
theorem fromRules_clauses {G : List (List Int)} {s : Solver} (h : Solver.fromRules G = .ok s) :
    clauseLists s = (nonempty G).map fromkeys := by
  unfold Solver.fromRules at h
  cases h1 : Solver.init.addRules 0 G with
  | error e => rw [h1] at h; simp at h
  | ok s1 =>
    rw [h1] at h
    simp only [Except.ok.injEq] at h
    have := addRules_clauses G 0 (s := Solver.init) (by simp [Solver.init]) h1
    rw [← h]
    have e : clauseLists (Solver.init) = [] := rfl
    rw [e, List.nil_append] at this
    exact this

end Verif.Solve
