import Verif.Text.PackageLemmas
import Verif.Text.Strings
import Verif.Text.Example
import Verif.Props.Text
/-
Property theorems about package strings (C68, C69); the model is Verif/Text/Package.lean, the vocabulary of the statements
Verif/Text/PackageSpec.lean.
-/
set_option linter.unusedSectionVars false
namespace Verif.Props
open Verif Verif.Pkg Verif.Text Verif.Text.Re CharTable

variable [CharTable]

/-! ### dictionaries of items -/

theorem stringsFor_append (a b : List (Str × Str)) (n : Str) : stringsFor (a ++ b) n = stringsFor a n ++ stringsFor b n := by
  simp [stringsFor]

theorem items_dict : ∀ (l done : List (Str × Str)) (d : Dict Str (List Str)), (dkeys d).Nodup →
    (∀ n, (dget d n).getD [] = stringsFor done n) → (∀ n, n ∈ dkeys d ↔ stringsFor done n ≠ []) →
    (dkeys (l.foldl addItem d)).Nodup ∧ (∀ n, (dget (l.foldl addItem d) n).getD [] = stringsFor (done ++ l) n) ∧
      ∀ n, n ∈ dkeys (l.foldl addItem d) ↔ stringsFor (done ++ l) n ≠ [] := by
  intro l
  induction l with
  | nil => intro done d h1 h2 h3; simpa using ⟨h1, h2, h3⟩
  | cons i l ih =>
    intro done d h1 h2 h3
    have hone : ∀ n, stringsFor (done ++ [i]) n = if i.1 = n then stringsFor done n ++ [i.2] else stringsFor done n := by
      intro n
      rw [stringsFor_append]
      by_cases h : i.1 = n <;> simp [stringsFor, h]
    have := ih (done ++ [i]) (addItem d i) (nodup_dkeys_dset h1 _ _) ?_ ?_
    · simpa using this
    · intro n
      unfold addItem
      rw [dget_dset, hone]
      split
      · next h => subst h; rw [Option.getD_some, h2]
      · exact h2 n
    · intro n
      unfold addItem
      rw [hone, dkeys_dset]
      split
      · next h =>
        by_cases hn : i.1 = n
        · subst hn; simp [h]
        · simp only [hn, if_false]; exact h3 n
      · next h =>
        rw [List.mem_append, List.mem_singleton]
        by_cases hn : i.1 = n
        · subst hn; simp
        · simp only [hn, if_false]
          rw [h3 n]
          constructor
          · rintro (h | h)
            · exact h
            · exact absurd h.symm hn
          · exact Or.inl

theorem merged_items {U : Type} (items : List (Str × Str)) :
    Merged (U := U) items ((sortBy Prod.fst (items.foldl addItem [])).map (fun kv => (kv.1, [kv.2.map CStr.mk]))) := by
  obtain ⟨h1, h2, h3⟩ := items_dict items [] [] List.nodup_nil (by simp [dget, stringsFor]) (by simp [dkeys, stringsFor])
  rw [List.nil_append] at h2 h3
  constructor
  · rw [List.pairwise_map]
    have hs := sortBy_sorted Prod.fst (items.foldl addItem [])
    have hn : (sortBy Prod.fst (items.foldl addItem [])).Pairwise (fun a b => a.1 ≠ b.1) := by
      have : ((sortBy Prod.fst (items.foldl addItem [])).map Prod.fst).Nodup :=
        ((sortBy_perm _ _).map _).nodup_iff.2 h1
      rwa [List.Nodup, List.pairwise_map] at this
    exact (hs.and hn).imp (fun h => lt_of_le_of_ne h.1 h.2)
  · intro n disj
    rw [List.mem_map]
    constructor
    · rintro ⟨⟨k, v⟩, hkv, he⟩
      rw [mem_sortBy] at hkv
      have hg := dget_of_mem h1 hkv
      have h2' := h2 k
      rw [hg, Option.getD_some] at h2'
      simp only [Prod.mk.injEq] at he
      obtain ⟨rfl, rfl⟩ := he
      exact ⟨(h3 k).1 ((mem_dkeys_iff _ _).2 ⟨v, hg⟩), by rw [h2']⟩
    · rintro ⟨hne, rfl⟩
      obtain ⟨v, hv⟩ := (mem_dkeys_iff _ _).1 ((h3 n).2 hne)
      have h2' := h2 n
      rw [hv, Option.getD_some] at h2'
      exact ⟨(n, v), by rw [mem_sortBy]; exact mem_of_dget hv, by rw [h2']⟩

theorem Merged.unique {U : Type} {items : List (Str × Str)} {a b : List (CTuple Str (CStr U))} (ha : Merged items a)
    (hb : Merged items b) : a = b := by
  have hmem : ∀ x, x ∈ a ↔ x ∈ b := by
    rintro ⟨n, disj⟩
    rw [ha.mem, hb.mem]
  have hna : a.Nodup := ha.sorted.imp (fun h e => by rw [e] at h; exact lt_irrefl _ h)
  have hnb : b.Nodup := hb.sorted.imp (fun h e => by rw [e] at h; exact lt_irrefl _ h)
  have hp : a.Perm b := (List.perm_ext_iff_of_nodup hna hnb).2 hmem
  exact hp.eq_of_pairwise (le := fun x y => x.1 < y.1) (fun x y _ _ h1 h2 => absurd (lt_trans h1 h2) (lt_irrefl _)) ha.sorted hb.sorted

/-! ### the blocks -/

theorem dget_four {β : Type} (a b c d w : Str) (x y z : β) :
    dget [(a, x), (b, x), (c, y), (d, z)] w =
      if w = a ∨ w = b then some x else if w = c then some y else if w = d then some z else none := by
  unfold dget
  by_cases h1 : a = w
  · rw [if_pos h1, if_pos (Or.inl h1.symm)]
  · rw [if_neg h1]
    unfold dget
    by_cases h2 : b = w
    · rw [if_pos h2, if_pos (Or.inr h2.symm)]
    · rw [if_neg h2, if_neg (by rintro (h | h); exacts [h1 h.symm, h2 h.symm])]
      unfold dget
      by_cases h3 : c = w
      · rw [if_pos h3, if_pos h3.symm]
      · rw [if_neg h3, if_neg (fun h => h3 h.symm)]
        unfold dget
        by_cases h4 : d = w
        · rw [if_pos h4, if_pos h4.symm]
        · rw [if_neg h4, if_neg (fun h => h4 h.symm)]
          rfl

theorem synonyms_kindOf (w : Str) : dget synonyms w = kindOf w := dget_four _ _ _ _ _ _ _ _

theorem parseBlocks_spec {U : Type} : ∀ (bs done : List Block) (d : Dict CKind (Dict Str (List Str))), (∀ b ∈ bs, b.OK) →
    (∀ k, Says (U := U) done k (entryTuples d k)) → (∀ b ∈ bs, kindOf b.word ≠ none) →
    ∃ d', parseBlocks (bs.map (fun b => (b.word, b.inside))) d = .ok d' ∧ ∀ k, Says (U := U) (done ++ bs) k (entryTuples d' k) := by
  intro bs
  induction bs with
  | nil => intro done d _ h _; exact ⟨d, rfl, by simpa using h⟩
  | cons b bs ih =>
    intro done d hok h hk
    obtain ⟨kb, hkb⟩ := Option.ne_none_iff_exists'.1 (hk b (by simp))
    simp only [List.map_cons, parseBlocks]
    rw [synonyms_kindOf, hkb]
    have := ih (done ++ [b]) (dset d kb (blockItems b.inside)) (fun b' hb' => hok b' (by simp [hb'])) ?_
      (fun b' hb' => hk b' (by simp [hb']))
    · simpa using this
    · intro k
      have hent : entryTuples (U := U) (dset d kb (blockItems b.inside)) k =
          if kb = k then ((sortBy Prod.fst (blockItems b.inside)).map (fun kv => (kv.1, [kv.2.map CStr.mk]))) else entryTuples d k := by
        unfold entryTuples
        rw [dget_dset]
        by_cases h : kb = k
        · simp only [if_pos h]
        · simp only [if_neg h]
      rw [hent]
      split
      · next e =>
        subst e
        constructor
        · intro hnone
          exact absurd hkb (hnone b (by simp))
        · intro before b' after he hb' hafter
          have : b' = b := by
            rcases List.eq_nil_or_concat after with rfl | ⟨a', x, rfl⟩
            · have := congrArg List.getLast? he
              simpa using this.symm
            · have := congrArg List.getLast? he
              rw [List.concat_eq_append] at hafter this
              have hx : b = x := by
                have h' : (before ++ b' :: (a' ++ [x])) = (before ++ b' :: a') ++ [x] := by simp
                rw [h', List.getLast?_append, List.getLast?_append] at this
                simpa using this
              subst hx
              exact absurd hkb (hafter b (by simp))
          subst this
          unfold blockItems
          rw [blockItems_inside (hok b' (by simp))]
          exact merged_items _
      · next hne =>
        have hb : kindOf b.word ≠ some k := by rw [hkb]; simpa using hne
        constructor
        · intro hnone
          exact (h k).1 (fun b' hb' => hnone b' (by simp [hb']))
        · intro before b' after he hb' hafter
          rcases List.eq_nil_or_concat after with rfl | ⟨a', x, rfl⟩
          · have := congrArg List.getLast? he
            have : b = b' := by simpa using this
            subst this
            exact absurd hb' hb
          · rw [List.concat_eq_append] at he hafter
            have h' : (before ++ b' :: (a' ++ [x])) = (before ++ b' :: a') ++ [x] := by simp
            rw [h'] at he
            have he' := List.append_inj' he rfl
            exact (h k).2 before b' a' he'.1 hb' (fun y hy => hafter y (by simp [hy]))

theorem parseBlocks_unknown : ∀ (bs : List Block) (d : Dict CKind (Dict Str (List Str))),
    (∃ b ∈ bs, kindOf b.word = none) → parseBlocks (bs.map (fun b => (b.word, b.inside))) d = .error .valueError := by
  intro bs
  induction bs with
  | nil => rintro d ⟨b, h, -⟩; cases h
  | cons b bs ih =>
    rintro d ⟨b', hb', hn⟩
    simp only [List.map_cons, parseBlocks]
    rw [synonyms_kindOf]
    cases h : kindOf b.word with
    | none => rfl
    | some k =>
      refine ih _ ⟨b', ?_, hn⟩
      rw [List.mem_cons] at hb'
      rcases hb' with rfl | hb'
      · rw [h] at hn; cases hn
      · exact hb'

/-! ### the whole string -/

theorem splitSemicolon_none {a : Str} (ha : ';' ∉ a) : splitSemicolon a = (a, none) := by
  induction a with
  | nil => rfl
  | cons c a ih =>
    simp only [List.mem_cons, not_or] at ha
    rw [splitSemicolon, if_neg (fun h => ha.1 h.symm), ih ha.2]

theorem splitSemicolon_some {a : Str} (ha : ';' ∉ a) (b : Str) : splitSemicolon (a ++ ';' :: b) = (a, some b) := by
  induction a with
  | nil => simp [splitSemicolon]
  | cons c a ih =>
    simp only [List.mem_cons, not_or] at ha
    rw [List.cons_append, splitSemicolon, if_neg (fun h => ha.1 h.symm), ih ha.2]

theorem preamble_spec {n g v : Str} (hn : ValidName n) (hg : g ≠ [] ∧ ∀ c ∈ g, c = ' ') (hv : ValidVersion v) :
    parsePreamble (n ++ g ++ v) = .ok (n, v) := by
  have h0 : (St.start (n ++ g ++ v)).rest = n ++ (g ++ v) := by simp [St.start]
  obtain ⟨c, g', rfl⟩ : ∃ c g', g = c :: g' := by
    cases g with
    | nil => exact absurd rfl hg.1
    | cons c g' => exact ⟨c, g', rfl⟩
  have hc := hg.2 c (by simp)
  subst hc
  have hstop : Stop (' ' :: g' ++ v) := by
    intro d u hd
    simp only [List.cons_append, List.cons.injEq] at hd
    rw [← hd.1]
    exact ⟨blank_not_word, by decide⟩
  have f1 := fst_group (i := 1) h0 (fst_name hn h0 hstop)
  have hvs : ∀ d u, v = d :: u → (d == ' ') = false := by
    intro d u hd
    rw [beq_eq_false_iff_ne]
    rintro rfl
    have := hv.no_space ' ' (by rw [hd]; simp)
    rw [CharTable.blank_space] at this
    cases this
  have f2 : Fst (.plus (.chr ' ')) ((St.start (n ++ ' ' :: g' ++ v)).advc 1 n (' ' :: g' ++ v))
      (((St.start (n ++ ' ' :: g' ++ v)).advc 1 n (' ' :: g' ++ v)).adv (' ' :: g') v) := by
    have e1 : Fst (.chr ' ') ((St.start (n ++ ' ' :: g' ++ v)).advc 1 n (' ' :: g' ++ v))
        (((St.start (n ++ ' ' :: g' ++ v)).advc 1 n (' ' :: g' ++ v)).adv [' '] (g' ++ v)) := fst_cls rfl (by simp)
    have e2 := fst_star_cls (p := fun x => x == ' ') hvs g'
      (((St.start (n ++ ' ' :: g' ++ v)).advc 1 n (' ' :: g' ++ v)).adv [' '] (g' ++ v)) rfl
      (by intro d hd; rw [hg.2 d (by simp [hd])]; rfl)
    rw [St.adv_adv] at e2
    exact fst_seq e1 e2
  have f3 := fst_group (i := 2) (a := versionR)
    (s := (((St.start (n ++ ' ' :: g' ++ v)).advc 1 n (' ' :: g' ++ v)).adv (' ' :: g') v)) (x := v) (t := [])
    (by simp [St.adv]) (fst_version hv (by simp [St.adv]) (Or.inl rfl))
  have f := fst_seq f1 (fst_seq f2 f3)
  unfold parsePreamble
  have : packageR.first (St.start (n ++ ' ' :: g' ++ v)) = some _ := f
  rw [this]
  simp [St.text, St.cap, St.advc, St.adv, St.start]

section
variable {U : Type} [LinearOrder U] [VersionText U]

theorem version_no_semicolon {v : Str} (h : ValidVersion v) : ';' ∉ v := by
  intro hm
  rcases h.chars _ hm with hw | h | h
  · rw [(plain_facts ';' (by simp)).1] at hw; cases hw
  · revert h; decide
  · revert h; decide

/-- how `parse_to_package` goes through a well-formed package string -/
theorem parse_stages (t : PackageText) (ht : t.OK) :
    parseToPackage (U := U) t.render =
      match parseBlocks (t.blocks.map (fun b => (b.word, b.inside))) [] with
      | .error e => .error e
      | .ok d => match VersionText.ofString t.version with
        | .error e => .error e
        | .ok version => .ok
          { name := t.name
            version := version
            installRequires := entryTuples d .installRequires
            conflicts := entryTuples d .conflicts
            declaredProvides := entryTuples d .provides
            repo := none } := by
  have hpre : ';' ∉ t.name ++ t.gap ++ t.version := by
    intro h
    simp only [List.mem_append] at h
    rcases h with (h | h) | h
    · exact (name_inside ht.name _ h).2.2 rfl
    · have := ht.gap.2 _ h
      revert this; decide
    · exact version_no_semicolon ht.version h
  have hstrip : strip t.render = t.name ++ t.gap ++ t.version ++ t.blocks.flatMap Block.render := by
    refine strip_around ht.lead ht.trail ?_ ?_
    · obtain ⟨c, u, hc, hw⟩ := ht.name.head
      exact ⟨c, u ++ t.gap ++ t.version ++ t.blocks.flatMap Block.render, by rw [hc]; simp, CharTable.word_space c hw⟩
    · rcases List.eq_nil_or_concat t.blocks with hb | ⟨bs, b, hb⟩
      · obtain ⟨c, u, hc, hw⟩ := ht.version.last
        refine ⟨c, u ++ (t.name ++ t.gap).reverse, ?_, CharTable.word_space c hw⟩
        rw [hb]
        simp only [List.flatMap_nil, List.append_nil]
        rw [List.reverse_append, hc]
        simp
      · refine ⟨')', (t.name ++ t.gap ++ t.version ++ bs.flatMap Block.render ++
          (';' :: b.before ++ b.word ++ b.after ++ '(' :: b.inside)).reverse, ?_, (plain_facts ')' (by simp)).2.2⟩
        rw [hb]
        simp [List.concat_eq_append, Block.render]
  have hfind : findAll blockR ((splitSemicolon (strip t.render)).2.getD []) = t.blocks.map (fun b => (b.word, b.inside)) ∧
      (splitSemicolon (strip t.render)).1 = t.name ++ t.gap ++ t.version := by
    rw [hstrip]
    have hf := finds_blocks t.blocks ht.blocks
    cases hb : t.blocks with
    | nil =>
      simp only [List.flatMap_nil, List.append_nil]
      rw [splitSemicolon_none hpre]
      rw [hb] at hf
      exact ⟨hf.all, rfl⟩
    | cons b bs =>
      rw [hb] at hf
      have e : (b :: bs).flatMap Block.render =
          ';' :: (b.before ++ b.word ++ b.after ++ '(' :: b.inside ++ [')'] ++ bs.flatMap Block.render) := by
        simp [List.flatMap_cons, Block.render]
      rw [e] at hf ⊢
      rw [splitSemicolon_some hpre]
      refine ⟨?_, rfl⟩
      rw [Option.getD_some]
      have hb1 := ht.blocks b (by rw [hb]; simp)
      have h1 := finds_blocks bs (fun b' hb' => ht.blocks b' (by rw [hb]; simp [hb']))
      have h2 := finds_hit (r := blockR) (x := b.word ++ b.after ++ '(' :: b.inside ++ [')']) (by simp)
        (fun s hs => fst_block hb1 hs) h1
      have h3 := finds_skips h2 b.before (by
        intro c hc u s hs
        refine block_none ?_
        intro d v hd
        rw [hs] at hd
        simp only [List.cons.injEq] at hd
        rw [← hd.1]
        exact space_not_word (hb1.before c hc))
      have e2 : b.before ++ b.word ++ b.after ++ '(' :: b.inside ++ [')'] ++ bs.flatMap Block.render =
          b.before ++ ((b.word ++ b.after ++ '(' :: b.inside ++ [')']) ++ bs.flatMap Block.render) := by simp
      rw [e2]
      exact h3.all
  unfold parseToPackage
  simp only [hfind.1, hfind.2, preamble_spec ht.name ht.gap ht.version]
  cases parseBlocks (t.blocks.map (fun b => (b.word, b.inside))) [] with
  | error e => rfl
  | ok d => cases VersionText.ofString (U := U) t.version <;> rfl

/-! ### C69 -/

/-- C69: a package string is read as it is written, if no kind of constraints has two blocks (of several, only the last is
read, so this is a part of the property). Whatever white space is used, the package has the name and the version
of the string, and for each kind of constraints those of the last block of that kind. -/
theorem C69_reads_what_is_written_partial (t : PackageText) (ht : t.OK) {v : Version U}
    (hv : VersionText.ofString t.version = .ok v) (hk : ∀ b ∈ t.blocks, kindOf b.word ≠ none) :
    ∃ p : Package Str (CStr U) U, parseToPackage t.render = .ok p ∧ p.name = t.name ∧ p.version = v ∧ p.repo = none ∧
      Says t.blocks .installRequires p.installRequires ∧ Says t.blocks .conflicts p.conflicts ∧
      Says t.blocks .provides p.declaredProvides := by
  obtain ⟨d, h1, h2⟩ := parseBlocks_spec (U := U) t.blocks [] [] ht.blocks
    (fun k => ⟨fun _ => rfl, fun before b after he => by simp at he⟩) hk
  rw [List.nil_append] at h2
  rw [parse_stages t ht, h1]
  simp only [hv]
  exact ⟨_, rfl, rfl, rfl, rfl, h2 _, h2 _, h2 _⟩

/-- C69: a word that is not one of the four is refused with ValueError, as is a bad version. -/
theorem C69_refuses (t : PackageText) (ht : t.OK) :
    ((∃ b ∈ t.blocks, kindOf b.word = none) → parseToPackage (U := U) t.render = .error .valueError) ∧
    (∀ e, VersionText.ofString (U := U) t.version = .error e → parseToPackage (U := U) t.render = .error .valueError) := by
  constructor
  · intro h
    rw [parse_stages t ht, parseBlocks_unknown _ _ h]
  · intro e he
    by_cases hk : ∃ b ∈ t.blocks, kindOf b.word = none
    · rw [parse_stages t ht, parseBlocks_unknown _ _ hk]
    · push Not at hk
      obtain ⟨d, h1, -⟩ := parseBlocks_spec (U := U) t.blocks [] [] ht.blocks
        (fun k => ⟨fun _ => rfl, fun before b after he => by simp at he⟩) hk
      rw [parse_stages t ht, h1]
      simp only [he]
      rw [VersionText.ofString_err _ _ he]

theorem parsePreamble_err {s : Str} {e : PErr} (h : parsePreamble s = .error e) : e = .valueError := by
  unfold parsePreamble at h
  split at h
  · cases h; rfl
  · split at h
    · cases h; rfl
    · cases h

theorem parseBlocks_err : ∀ (l : List (Str × Str)) (d : Dict CKind (Dict Str (List Str))) (e : PErr),
    parseBlocks l d = .error e → e = .valueError := by
  intro l
  induction l with
  | nil => intro d e h; cases h
  | cons x l ih =>
    intro d e h
    simp only [parseBlocks] at h
    split at h
    · cases h; rfl
    · exact ih _ _ h

/-- C69: for any string, the only exception is ValueError. -/
theorem C69_only_value_error (s : Str) {e : PErr} (h : parseToPackage (U := U) s = .error e) : e = .valueError := by
  unfold parseToPackage at h
  simp only at h
  split at h
  · next he => cases h; exact parseBlocks_err _ _ _ he
  · split at h
    · next he => cases h; exact parsePreamble_err he
    · split at h
      · next he => cases h; exact VersionText.ofString_err _ _ he
      · cases h

/-! what is accepted -/

theorem rep_blanks {x : Str} (h : Rep (fun x => x = [' ']) x) : ∀ c ∈ x, c = ' ' := by
  induction h with
  | nil => intro c hc; cases hc
  | cons hx _ _ ih =>
    intro c hc
    rw [List.mem_append] at hc
    rcases hc with hc | hc
    · rw [hx] at hc; exact List.mem_singleton.1 hc
    · exact ih c hc

theorem parsePreamble_only {s n v : Str} (h : parsePreamble s = .ok (n, v)) :
    ∃ gap, s = n ++ gap ++ v ∧ ValidName n ∧ (gap ≠ [] ∧ ∀ c ∈ gap, c = ' ') ∧ ValidVersion v := by
  have take_eq : ∀ x y : Str, (x ++ y).take ((x ++ y).length - y.length) = x := by intro x y; simp
  unfold parsePreamble at h
  split at h
  · cases h
  · next m hm =>
    split at h
    · cases h
    · next hlen =>
      have hmem : m ∈ run packageR (St.start s) := List.mem_of_mem_head? (by
        have : (run packageR (St.start s)).head? = some m := hm
        rw [this]; simp)
      unfold packageR at hmem
      rw [run, List.mem_flatMap] at hmem
      obtain ⟨s1, h1, hmem⟩ := hmem
      rw [run, List.mem_flatMap] at hmem
      obtain ⟨s2, h2, h3⟩ := hmem
      obtain ⟨x1, hx1, rfl⟩ := mem_group.1 h1
      obtain ⟨n', u1, hn, hr1, rfl⟩ := (rec_name _ _).1 hx1
      obtain ⟨gap, u2, ⟨a, b, rfl, rfl, hb⟩, hr2, rfl⟩ := (rec_plus (rec_chr ' ') _ _).1 h2
      obtain ⟨x3, hx3, rfl⟩ := mem_group.1 h3
      obtain ⟨v', t, hv, hr3, ht, rfl⟩ := (mem_version _ _).1 hx3
      simp only [St.adv] at hr2 hr3 hlen
      have ht0 : t = [] := List.length_eq_zero_iff.1 (Decidable.not_not.1 hlen)
      subst ht0 hr3 hr2
      have hr1' : s = n' ++ ([' '] ++ b ++ (v' ++ [])) := hr1
      simp only [St.text, St.cap, St.adv, hr1, take_eq] at h
      simp only [List.find?, beq_self_eq_true, Option.map_some, Option.getD_some] at h
      have h' : n' = n ∧ v' = v := by simpa using h
      obtain ⟨rfl, rfl⟩ := h'
      refine ⟨[' '] ++ b, by rw [hr1']; simp, hn, ⟨by simp, ?_⟩, hv⟩
      intro c hc
      rw [List.mem_append, List.mem_singleton] at hc
      exact hc.elim id (rep_blanks hb c)

theorem splitSemicolon_spec (s : Str) : ∃ rest, s = (splitSemicolon s).1 ++ rest ∧ (rest = [] ∨ ∃ u, rest = ';' :: u) := by
  induction s with
  | nil => exact ⟨[], rfl, Or.inl rfl⟩
  | cons c s ih =>
    unfold splitSemicolon
    split
    · next h => subst h; exact ⟨_, rfl, Or.inr ⟨s, rfl⟩⟩
    · obtain ⟨rest, h1, h2⟩ := ih
      refine ⟨rest, ?_, h2⟩
      rw [List.cons_append, ← h1]

/-- C69: what is accepted begins, after white space, with the name of the package, blanks and its version; a semicolon or the
end of the string comes next. -/
theorem C69_accepts_only {s : Str} {p : Package Str (CStr U) U} (h : parseToPackage s = .ok p) :
    ∃ lead gap version rest trail, s = lead ++ (p.name ++ gap ++ version ++ rest) ++ trail ∧
      (∀ c ∈ lead, isSpace c = true) ∧ (∀ c ∈ trail, isSpace c = true) ∧ ValidName p.name ∧
      (gap ≠ [] ∧ ∀ c ∈ gap, c = ' ') ∧ ValidVersion version ∧ VersionText.ofString version = .ok p.version ∧
      (rest = [] ∨ ∃ u, rest = ';' :: u) := by
  unfold parseToPackage at h
  simp only at h
  split at h
  · cases h
  · split at h
    · cases h
    · next n v hp =>
      split at h
      · cases h
      · next ver hv =>
        cases h
        obtain ⟨lead, trail, e1, e2, e3⟩ := strip_spec s
        obtain ⟨rest, e4, e5⟩ := splitSemicolon_spec (strip s)
        obtain ⟨gap, e6, e7, e8, e9⟩ := parsePreamble_only hp
        refine ⟨lead, gap, v, rest, trail, ?_, e2, e3, e7, e8, e9, hv, e5⟩
        simp only
        rw [← e6, ← e4]
        exact e1

/-! ### C68 -/

/-- A constraint string that can be written into a block: no comma, closing parenthesis, newline or brace, and no white
space at either end. -/
structure Plain (s : Str) : Prop where
  chars : ∀ c ∈ s, c ≠ ',' ∧ c ≠ ')' ∧ c ≠ '\n' ∧ c ≠ '{' ∧ c ≠ '}'
  stripped : strip s = s

/-- The constraint tuples can be written: names are names, and constraint strings are plain. -/
def Writable (ts : List (CTuple Str (CStr U))) : Prop :=
  ∀ t ∈ ts, ValidName t.1 ∧ ∀ conj ∈ t.2, ∀ c ∈ conj, Plain c.text

/-- the names and constraint strings of the tuples, in order -/
def pairsOf (ts : List (CTuple Str (CStr U))) : List (Str × Str) :=
  ts.flatMap (fun t => t.2.flatten.map (fun c => (t.1, c.text)))

/-- The tuples as the parser makes them: one for each name, sorted, with one conjunction that is not empty. -/
def Normal (ts : List (CTuple Str (CStr U))) : Prop :=
  ts.Pairwise (fun a b => a.1 < b.1) ∧ ∀ t ∈ ts, ∃ conj, t.2 = [conj] ∧ conj ≠ []

/-- how a constraint is written -/
def itemOf (x : Str × Str) : Item := ⟨x.1, if x.2 = [] then [] else [' '], x.2⟩

theorem itemOf_ok {n x : Str} (hn : ValidName n) (hx : Plain x) : (itemOf (n, x)).OK where
  dist := hn
  gap := by
    intro c hc
    unfold itemOf at hc
    simp only at hc
    split at hc
    · cases hc
    · simpa using hc
  text := fun c hc => ⟨(hx.chars c hc).1, (hx.chars c hc).2.1, (hx.chars c hc).2.2.1⟩
  first := by
    rintro c t hc rfl
    have := strip_first hx.stripped _ _ hc
    rw [CharTable.blank_space] at this
    cases this
  apart := by
    intro hg c t hc
    unfold itemOf at hg hc
    simp only at hg hc
    rw [hc] at hg
    simp at hg

theorem itemOf_render {n x : Str} (hn : ValidName n) (hx : Plain x) : strip (n ++ ' ' :: x) = (itemOf (n, x)).render := by
  obtain ⟨c, u, hc, hw⟩ := hn.head
  obtain ⟨c', u', hc', hw'⟩ := hn.last
  unfold Item.render itemOf
  simp only
  by_cases h : x = []
  · subst h
    rw [if_pos rfl]
    have := strip_around (a := []) (s := n) (b := [' ']) (by simp) (by simp [CharTable.blank_space])
      ⟨c, u, hc, CharTable.word_space c hw⟩ ⟨c', u', hc', CharTable.word_space c' hw'⟩
    simpa using this
  · rw [if_neg h]
    obtain ⟨d, v, hd⟩ : ∃ d v, x.reverse = d :: v := by
      cases hr : x.reverse with
      | nil => exact absurd (by simpa using hr) h
      | cons d v => exact ⟨d, v, rfl⟩
    have := strip_around (a := []) (s := n ++ ' ' :: x) (b := []) (by simp) (by simp)
      ⟨c, u ++ ' ' :: x, by rw [hc]; rfl, CharTable.word_space c hw⟩
      ⟨d, v ++ (n ++ [' ']).reverse, by simp [hd], strip_last hx.stripped d v hd⟩
    simpa using this

/-- the block for some constraints -/
def blockOf (w : Str) (l : List (Str × Str)) : Block :=
  ⟨[' '], w, [' '], match l with
    | [] => none
    | x :: xs => some (itemOf x, xs.map (fun y => ([' '], itemOf y)))⟩

theorem blockOf_pairs (w : Str) (l : List (Str × Str)) : (blockOf w l).pairs = l := by
  cases l with
  | nil => rfl
  | cons x xs =>
    simp only [blockOf, Block.pairs, itemOf, List.map_map]
    congr 1
    exact List.map_id _

theorem joinComma_items : ∀ (xs : List (Str × Str)) (x : Str × Str),
    joinComma ((x :: xs).map (fun y => (itemOf y).render)) = renderItems (itemOf x) (xs.map (fun y => ([' '], itemOf y))) := by
  intro xs
  induction xs with
  | nil => intro x; rfl
  | cons y xs ih =>
    intro x
    have := ih y
    simp only [List.map_cons, joinComma, renderItems] at this ⊢
    rw [this]
    simp

theorem Writable.pairs {ts : List (CTuple Str (CStr U))} (h : Writable ts) : ∀ x ∈ pairsOf ts, ValidName x.1 ∧ Plain x.2 := by
  intro x hx
  unfold pairsOf at hx
  rw [List.mem_flatMap] at hx
  obtain ⟨t, ht, hx⟩ := hx
  rw [List.mem_map] at hx
  obtain ⟨c, hc, rfl⟩ := hx
  rw [List.mem_flatten] at hc
  obtain ⟨conj, h1, h2⟩ := hc
  exact ⟨(h t ht).1, (h t ht).2 conj h1 c h2⟩

theorem prettyConstraints_eq {ts : List (CTuple Str (CStr U))} (h : Writable ts) :
    prettyConstraints ts = (pairsOf ts).map (fun x => (itemOf x).render) := by
  unfold prettyConstraints pairsOf
  rw [List.map_flatMap]
  refine List.flatMap_congr ?_
  intro t ht
  rw [List.map_map, List.map_flatten, ← List.flatMap_def]
  refine List.flatMap_congr ?_
  intro conj hconj
  refine List.map_congr_left ?_
  intro c hc
  exact itemOf_render (h t ht).1 ((h t ht).2 conj hconj c hc)

theorem blockOf_ok {w : Str} {l : List (Str × Str)} (hw : Word w) (hl : ∀ x ∈ l, ValidName x.1 ∧ Plain x.2) : (blockOf w l).OK where
  before := by simp [blockOf, CharTable.blank_space]
  word := hw
  after := by simp [blockOf, CharTable.blank_space]
  items := by
    intro i rest h
    cases l with
    | nil => simp [blockOf] at h
    | cons x xs =>
      simp only [blockOf, Option.some.injEq, Prod.mk.injEq] at h
      obtain ⟨rfl, rfl⟩ := h
      have hx := hl x (by simp)
      refine ⟨itemOf_ok hx.1 hx.2, ?_⟩
      intro y hy
      rw [List.mem_map] at hy
      obtain ⟨z, hz, rfl⟩ := hy
      have hz' := hl z (by simp [hz])
      exact ⟨itemOf_ok hz'.1 hz'.2, by simp⟩

theorem prettyBlock_eq {w : Str} {ts : List (CTuple Str (CStr U))} (h : Writable ts) :
    prettyBlock w ts = (if ts = [] then [] else [blockOf w (pairsOf ts)]).flatMap Block.render := by
  unfold prettyBlock
  cases ts with
  | nil => rfl
  | cons t ts =>
    rw [if_pos (by simp), if_neg (by simp), prettyConstraints_eq h]
    simp only [List.flatMap_cons, List.flatMap_nil, List.append_nil]
    have e : joinComma ((pairsOf (t :: ts)).map (fun x => (itemOf x).render)) = (blockOf w (pairsOf (t :: ts))).inside := by
      cases hp : pairsOf (t :: ts) with
      | nil => rfl
      | cons x xs => exact joinComma_items xs x
    rw [e]
    simp [Block.render, blockOf]

/-- the text of a package -/
def textOf (p : Package Str (CStr U) U) : PackageText :=
  { lead := []
    name := p.name
    gap := [' ']
    version := VersionText.toStr p.version
    blocks := (if p.installRequires = [] then [] else [blockOf "install_requires".toList (pairsOf p.installRequires)]) ++
      ((if p.conflicts = [] then [] else [blockOf "conflicts".toList (pairsOf p.conflicts)]) ++
      (if p.declaredProvides.filter (fun t => decide (t.1 ≠ p.name)) = [] then []
        else [blockOf "provides".toList (pairsOf (p.declaredProvides.filter (fun t => decide (t.1 ≠ p.name))))]))
    trail := [] }

theorem provides_filter (p : Package Str (CStr U) U) :
    p.provides.filter (fun t => decide (t.1 ≠ p.name)) = p.declaredProvides.filter (fun t => decide (t.1 ≠ p.name)) := by
  unfold Package.provides
  rw [List.filter_cons_of_neg (by simp)]

theorem Writable.filter {ts : List (CTuple Str (CStr U))} (h : Writable ts) (f : CTuple Str (CStr U) → Bool) : Writable (ts.filter f) :=
  fun t ht => h t (List.mem_of_mem_filter ht)

theorem packageToPretty_eq {p : Package Str (CStr U) U} (h1 : Writable p.installRequires) (h2 : Writable p.conflicts)
    (h3 : Writable p.declaredProvides) : packageToPretty p = (textOf p).render := by
  unfold packageToPretty PackageText.render textOf
  rw [provides_filter, prettyBlock_eq h1, prettyBlock_eq h2, prettyBlock_eq (h3.filter _)]
  simp only [List.flatMap_append, List.nil_append, List.append_nil, List.append_assoc]
  rfl

theorem ascii_word_of {w : String} (h : ∀ c ∈ w.toList, c.isAlphanum = true ∨ c = '_') (hne : w.toList ≠ []) : Word w.toList :=
  ⟨hne, fun c hc => CharTable.ascii_word c (h c hc)⟩

theorem says_of_blocks {bs1 bs2 : List Block} {w : Str} {k : CKind} {l : List (Str × Str)} {empty : Prop} [Decidable empty]
    {ts : List (CTuple Str (CStr U))} (hs : Says (bs1 ++ ((if empty then [] else [blockOf w l]) ++ bs2)) k ts)
    (hw : kindOf w = some k) (h1 : ∀ b ∈ bs1, kindOf b.word ≠ some k) (h2 : ∀ b ∈ bs2, kindOf b.word ≠ some k)
    (he : empty → l = []) : Merged l ts := by
  by_cases h : empty
  · rw [he h]
    have : ts = [] := hs.1 (by
      intro b hb
      rw [if_pos h, List.nil_append, List.mem_append] at hb
      rcases hb with hb | hb
      · exact h1 b hb
      · exact h2 b hb)
    subst this
    exact ⟨List.Pairwise.nil, by simp [stringsFor]⟩
  · have := hs.2 bs1 (blockOf w l) bs2 (by rw [if_neg h]; rfl) hw h2
    rwa [blockOf_pairs] at this

theorem word_install_requires : Word "install_requires".toList := ascii_word_of (by decide +kernel) (by decide +kernel)
theorem word_conflicts : Word "conflicts".toList := ascii_word_of (by decide +kernel) (by decide +kernel)
theorem word_provides : Word "provides".toList := ascii_word_of (by decide +kernel) (by decide +kernel)
theorem kindOf_install_requires : kindOf "install_requires".toList = some .installRequires := by decide +kernel
theorem kindOf_conflicts : kindOf "conflicts".toList = some .conflicts := by decide +kernel
theorem kindOf_provides : kindOf "provides".toList = some .provides := by decide +kernel

theorem mem_unless {α : Type} {c : Prop} [Decidable c] {a b : α} (h : b ∈ (if c then [] else [a])) : b = a := by
  split at h
  · cases h
  · exact List.mem_singleton.1 h

theorem textOf_block {p : Package Str (CStr U) U} (h1 : Writable p.installRequires) (h2 : Writable p.conflicts) (h3 : Writable p.declaredProvides) :
    ∀ b ∈ (textOf p).blocks, ∃ (w : Str) (ts : List (CTuple Str (CStr U))), b = blockOf w (pairsOf ts) ∧ Writable ts ∧ Word w ∧ kindOf w ≠ none := by
  intro b hb
  simp only [textOf, List.mem_append] at hb
  rcases hb with hb | hb | hb
  · exact ⟨_, _, mem_unless hb, h1, word_install_requires, by rw [kindOf_install_requires]; simp⟩
  · exact ⟨_, _, mem_unless hb, h2, word_conflicts, by rw [kindOf_conflicts]; simp⟩
  · exact ⟨_, _, mem_unless hb, h3.filter _, word_provides, by rw [kindOf_provides]; simp⟩

theorem textOf_ok {p : Package Str (CStr U) U} (hn : ValidName p.name) (hv : Printable p.version)
    (h1 : Writable p.installRequires) (h2 : Writable p.conflicts) (h3 : Writable p.declaredProvides) : (textOf p).OK := by
  have hb : ∀ b ∈ (textOf p).blocks, b.OK := by
    intro b hb
    obtain ⟨w, ts, e, e1, e2, -⟩ := textOf_block h1 h2 h3 b hb
    rw [e]
    exact blockOf_ok e2 e1.pairs
  exact ⟨fun c hc => absurd hc List.not_mem_nil, hn, ⟨List.cons_ne_nil _ _, fun c hc => List.mem_singleton.1 hc⟩, hv.valid, hb,
    fun c hc => absurd hc List.not_mem_nil⟩

/-- C68: a package that can be written is read back: name and version are the same, and the constraints are the same up to
the order of the names, tuples for the same name being put together. What is provided under the name of the package itself
is not written. -/
theorem C68_round_trip (p : Package Str (CStr U) U) (hn : ValidName p.name) (hv : Printable p.version)
    (h1 : Writable p.installRequires) (h2 : Writable p.conflicts) (h3 : Writable p.declaredProvides) :
    ∃ p' : Package Str (CStr U) U, parseToPackage (packageToPretty p) = .ok p' ∧ p'.name = p.name ∧ p'.version = p.version ∧
      p'.repo = none ∧ Merged (pairsOf p.installRequires) p'.installRequires ∧ Merged (pairsOf p.conflicts) p'.conflicts ∧
      Merged (pairsOf (p.declaredProvides.filter (fun t => decide (t.1 ≠ p.name)))) p'.declaredProvides := by
  have k1 := kindOf_install_requires
  have k2 := kindOf_conflicts
  have k3 := kindOf_provides
  have h12 : kindOf "install_requires".toList ≠ some .conflicts := by rw [k1]; simp
  have h13 : kindOf "install_requires".toList ≠ some .provides := by rw [k1]; simp
  have h21 : kindOf "conflicts".toList ≠ some .installRequires := by rw [k2]; simp
  have h23 : kindOf "conflicts".toList ≠ some .provides := by rw [k2]; simp
  have h31 : kindOf "provides".toList ≠ some .installRequires := by rw [k3]; simp
  have h32 : kindOf "provides".toList ≠ some .conflicts := by rw [k3]; simp
  rw [packageToPretty_eq h1 h2 h3]
  obtain ⟨p', e1, e2, e3, e4, e5, e6, e7⟩ := C69_reads_what_is_written_partial (textOf p) (textOf_ok hn hv h1 h2 h3) hv.back (by
    intro b hb
    obtain ⟨w, ts, rfl, -, -, e⟩ := textOf_block h1 h2 h3 b hb
    exact e)
  refine ⟨p', e1, e2, e3, e4, ?_, ?_, ?_⟩
  · refine says_of_blocks (bs1 := []) e5 k1 (by simp) ?_ (by intro h; rw [h]; rfl)
    intro b hb
    rw [List.mem_append] at hb
    rcases hb with hb | hb
    · rw [mem_unless hb]; exact h21
    · rw [mem_unless hb]; exact h31
  · refine says_of_blocks e6 k2 ?_ ?_ (by intro h; rw [h]; rfl)
    · intro b hb
      rw [mem_unless hb]; exact h12
    · intro b hb
      rw [mem_unless hb]; exact h32
  · have e7' : Says (((if p.installRequires = [] then [] else [blockOf "install_requires".toList (pairsOf p.installRequires)]) ++
      (if p.conflicts = [] then [] else [blockOf "conflicts".toList (pairsOf p.conflicts)])) ++
      ((if p.declaredProvides.filter (fun t => decide (t.1 ≠ p.name)) = [] then []
        else [blockOf "provides".toList (pairsOf (p.declaredProvides.filter (fun t => decide (t.1 ≠ p.name))))]) ++ []))
        .provides p'.declaredProvides := by
      rw [List.append_nil, List.append_assoc]
      exact e7
    refine says_of_blocks e7' k3 ?_ (by simp) (by intro h; rw [h]; rfl)
    intro b hb
    rw [List.mem_append] at hb
    rcases hb with hb | hb
    · rw [mem_unless hb]; exact h13
    · rw [mem_unless hb]; exact h23

theorem Normal.merged {ts : List (CTuple Str (CStr U))} (h : Normal ts) : Merged (pairsOf ts) ts := by
  have hstr : ∀ (ts : List (CTuple Str (CStr U))) n, stringsFor (pairsOf ts) n =
      ts.flatMap (fun t => if t.1 = n then t.2.flatten.map CStr.text else []) := by
    intro ts n
    unfold stringsFor pairsOf
    rw [List.filter_flatMap, List.map_flatMap]
    refine List.flatMap_congr ?_
    intro t _
    by_cases e : t.1 = n
    · simp [e, List.filter_map, Function.comp_def]
    · simp [e, List.filter_map, Function.comp_def]
  refine ⟨h.1, ?_⟩
  have key : ∀ ts : List (CTuple Str (CStr U)), Normal ts → ∀ t ∈ ts,
      stringsFor (pairsOf ts) t.1 = t.2.flatten.map CStr.text := by
    intro ts
    induction ts with
    | nil => intro _ t ht; cases ht
    | cons a ts ih =>
      intro hN t ht
      have hN' : Normal ts := ⟨hN.1.of_cons, fun t ht => hN.2 t (by simp [ht])⟩
      rw [hstr, List.flatMap_cons]
      rw [List.mem_cons] at ht
      rcases ht with rfl | ht
      · rw [if_pos rfl]
        have : ts.flatMap (fun x => if x.1 = t.1 then x.2.flatten.map CStr.text else []) = [] := by
          rw [List.flatMap_eq_nil_iff]
          intro x hx
          have := (List.pairwise_cons.1 hN.1).1 x hx
          rw [if_neg (fun e => by rw [e] at this; exact lt_irrefl _ this)]
        rw [this, List.append_nil]
      · have := (List.pairwise_cons.1 hN.1).1 t ht
        rw [if_neg (fun e => by rw [e] at this; exact lt_irrefl _ this), List.nil_append, ← hstr]
        exact ih hN' t ht
  have hback : ∀ l : List (CStr U), (l.map CStr.text).map CStr.mk = l := by
    intro l
    rw [List.map_map]
    exact List.map_id _
  intro n disj
  constructor
  · intro hm
    have hk := key ts h _ hm
    obtain ⟨conj, e1, e2⟩ := h.2 _ hm
    simp only at hk e1
    subst e1
    rw [hk]
    simp only [List.flatten_cons, List.flatten_nil, List.append_nil]
    exact ⟨by simpa using e2, by rw [hback]⟩
  · rintro ⟨hne, rfl⟩
    obtain ⟨t, ht, he⟩ : ∃ t ∈ ts, t.1 = n := by
      by_contra hc
      push Not at hc
      apply hne
      rw [hstr, List.flatMap_eq_nil_iff]
      intro t ht
      rw [if_neg (hc t ht)]
    obtain ⟨conj, e1, e2⟩ := h.2 _ ht
    subst he
    rw [key ts h t ht, e1]
    simp only [List.flatten_cons, List.flatten_nil, List.append_nil]
    rw [hback, ← e1]
    exact ht

/-- C68: a package whose constraints are in the form that the parser makes is read back as it was. -/
theorem C68_identity_partial (p : Package Str (CStr U) U) (hn : ValidName p.name) (hv : Printable p.version)
    (h1 : Writable p.installRequires) (h2 : Writable p.conflicts) (h3 : Writable p.declaredProvides)
    (n1 : Normal p.installRequires) (n2 : Normal p.conflicts) (n3 : Normal p.declaredProvides)
    (hown : ∀ t ∈ p.declaredProvides, t.1 ≠ p.name) (hr : p.repo = none) :
    parseToPackage (packageToPretty p) = .ok p := by
  obtain ⟨p', e1, e2, e3, e4, e5, e6, e7⟩ := C68_round_trip p hn hv h1 h2 h3
  rw [e1]
  have hf : p.declaredProvides.filter (fun t => decide (t.1 ≠ p.name)) = p.declaredProvides := by
    rw [List.filter_eq_self]
    intro t ht
    simpa using hown t ht
  rw [hf] at e7
  have i1 := Merged.unique e5 (Normal.merged n1)
  have i2 := Merged.unique e6 (Normal.merged n2)
  have i3 := Merged.unique e7 (Normal.merged n3)
  obtain ⟨a, b, c, d, e, f⟩ := p
  obtain ⟨a', b', c', d', e', f'⟩ := p'
  simp_all

end

end Verif.Props
