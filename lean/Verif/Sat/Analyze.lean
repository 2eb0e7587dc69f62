import Verif.Sat.Propagate
/-
Conflict analysis.
-/
namespace Verif.Sat
open Verif
namespace Solver

/-- A model of `F` that makes the decisions below position `i` true makes the whole trail below
position `i` true. -/
theorem Base.implied {F U D} {s : Solver} (h : Base F U D s) {m : Nat → Bool} (hm : Sat m F) (i : Nat)
    (hd : ∀ p r, (p :: r) <:+ s.trail → r.length ∈ s.trailLim → r.length < i → D p r → litTrue m p) :
    ∀ p r, (p :: r) <:+ s.trail → r.length < i → litTrue m p := by
  suffices H : ∀ n, ∀ p r, (p :: r) <:+ s.trail → r.length < i → r.length = n → litTrue m p from
    fun p r h1 h2 => H r.length p r h1 h2 rfl
  intro n
  induction n using Nat.strongRecOn with
  | _ n ih =>
    intro p r hp hi hn
    obtain ⟨cid, -, hc⟩ := h.reas p r hp
    rcases hc with ⟨h1, -, h2⟩ | ⟨h1, -, h3⟩
    · exact hd p r hp h1 hi h2
    · obtain ⟨l, hl, hlt⟩ := h.cent cid h1 m hm
      by_cases hlp : l = p
      · exact hlp ▸ hlt
      · exfalso
        have hlr := h3 l hl hlp
        obtain ⟨r', hr'⟩ := mem_suffix hlr
        have hlen := hr'.length_le
        simp only [List.length_cons] at hlen
        have := ih r'.length (by omega) (-l) r' (hr'.trans (suffix_rest hp)) (by omega) rfl
        exact (litTrue_neg m (h.cnz cid h1 l hl)).1 this hlt

theorem Base.pos_of_lev {F U D} {s : Solver} (h : Base F U D s) {p : Int} {r : List Int}
    (hp : (p :: r) <:+ s.trail) (hl : s.levels (iabs p) = (s.decisionLevel : Int)) :
    ∀ n ∈ s.trailLim, n ≤ r.length := by
  rw [h.lev p r hp] at hl
  have : lv s.trailLim r.length = s.trailLim.length := by unfold decisionLevel at hl; omega
  unfold lv at this
  rw [List.countP_eq_length] at this
  intro n hn
  simpa using this n hn

theorem Base.lev_of_pos {F U D} {s : Solver} (h : Base F U D s) {p : Int} {r : List Int}
    (hp : (p :: r) <:+ s.trail) (hl : ∀ n ∈ s.trailLim, n ≤ r.length) :
    s.levels (iabs p) = (s.decisionLevel : Int) := by
  rw [h.lev p r hp, lv_full _ _ hl]; rfl

/-- Invariant of the local variables of `analyze`. -/
structure TI (s : Solver) (a : Ana) : Prop where
  cnt : a.counter = (s.trail.countP (fun x => decide (iabs x ∈ a.seen) &&
    decide (s.levels (iabs x) = (s.decisionLevel : Int))) : Nat)
  lrn : ∀ l ∈ a.learned, -l ∈ s.trail ∧ s.levels (iabs l) ≠ (s.decisionLevel : Int) ∧ iabs l ∈ a.seen ∧
    s.levels (iabs l) ≤ a.btlevel
  bt0 : 0 ≤ a.btlevel
  bt : a.btlevel = 0 ∨ ∃ l ∈ a.learned, s.levels (iabs l) = a.btlevel
  nd : a.learned.Nodup
  low : ∀ x ∈ s.trail, iabs x ∈ a.seen → s.levels (iabs x) ≠ (s.decisionLevel : Int) → -x ∈ a.learned

theorem countP_add (t : List Int) (hnd : (t.map iabs).Nodup) {x : Int} (hx : x ∈ t) {seen : List Int}
    (hs : iabs x ∉ seen) (Q : Int → Bool) :
    t.countP (fun y => decide (iabs y ∈ seen ++ [iabs x]) && Q (iabs y)) =
      t.countP (fun y => decide (iabs y ∈ seen) && Q (iabs y)) + (if Q (iabs x) = true then 1 else 0) := by
  induction t with
  | nil => simp at hx
  | cons y t ih =>
    rw [List.map_cons, List.nodup_cons] at hnd
    rw [List.countP_cons, List.countP_cons]
    by_cases hy : iabs y = iabs x
    · have hcongr : t.countP (fun y => decide (iabs y ∈ seen ++ [iabs x]) && Q (iabs y)) =
          t.countP (fun y => decide (iabs y ∈ seen) && Q (iabs y)) := by
        apply List.countP_congr
        intro z hz
        have hz' : iabs z ≠ iabs x := by
          intro e; apply hnd.1; rw [hy, ← e]; exact List.mem_map_of_mem hz
        simp [hz']
      rw [hcongr]
      simp [hy, hs]
    · have hxt : x ∈ t := by
        rcases List.mem_cons.1 hx with e | e
        · exact absurd (by rw [e]) hy
        · exact e
      rw [ih hnd.2 hxt]
      simp only [List.mem_append, List.mem_singleton, hy, or_false]
      omega

theorem traceReason_spec {F U D} {s : Solver} (h : Base F U D s) (reason : List Int) {a : Ana} (ht : TI s a)
    (hr : ∀ x ∈ reason, x ∈ s.trail) :
    TI s (s.traceReason reason a) ∧
    (∀ v, v ∈ (s.traceReason reason a).seen ↔ v ∈ a.seen ∨ v ∈ reason.map iabs) ∧
    (∀ l ∈ a.learned, l ∈ (s.traceReason reason a).learned) := by
  induction reason generalizing a with
  | nil => exact ⟨ht, by simp [traceReason], by simp [traceReason]⟩
  | cons lit rest ih =>
    have hr' : ∀ x ∈ rest, x ∈ s.trail := fun x hx => hr x (by simp [hx])
    have hlt : lit ∈ s.trail := hr lit (by simp)
    simp only [traceReason]
    split
    · rename_i hs
      obtain ⟨h1, h2, h3⟩ := ih ht hr'
      refine ⟨h1, ?_, h3⟩
      intro v; rw [h2]; simp only [List.map_cons, List.mem_cons]
      constructor
      · rintro (h | h) <;> simp [h]
      · rintro (h | rfl | h)
        · exact Or.inl h
        · exact Or.inl hs
        · exact Or.inr h
    · rename_i hs
      have hcnt := countP_add s.trail h.tnd hlt hs (fun v => decide (s.levels v = (s.decisionLevel : Int)))
      split
      · rename_i hlev
        have hTI : TI s { a with seen := a.seen ++ [iabs lit], counter := a.counter + 1 } := by
          refine ⟨?_, ?_, ht.bt0, ht.bt, ht.nd, ?_⟩
          · simp only; rw [hcnt, ht.cnt]; simp [hlev]
          · intro l hl
            obtain ⟨g1, g2, g3, g4⟩ := ht.lrn l hl
            exact ⟨g1, g2, by simp [g3], g4⟩
          · intro x hx hxs hxl
            simp only [List.mem_append, List.mem_singleton] at hxs
            rcases hxs with hxs | hxs
            · exact ht.low x hx hxs hxl
            · rw [hxs] at hxl; exact absurd hlev hxl
        obtain ⟨h1, h2, h3⟩ := ih hTI hr'
        refine ⟨h1, ?_, h3⟩
        intro v; rw [h2]; simp only [List.map_cons, List.mem_cons, List.mem_append, List.not_mem_nil, or_false, or_assoc]
      · rename_i hlev
        have hTI : TI s { a with seen := a.seen ++ [iabs lit], learned := a.learned ++ [-lit],
                                 btlevel := max a.btlevel (s.levels (iabs lit)) } := by
          refine ⟨?_, ?_, ?_, ?_, ?_, ?_⟩
          · simp only; rw [hcnt, ht.cnt]; simp [hlev]
          · intro l hl
            simp only [List.mem_append, List.mem_singleton] at hl
            rcases hl with hl | rfl
            · obtain ⟨g1, g2, g3, g4⟩ := ht.lrn l hl
              exact ⟨g1, g2, by simp [g3], by simp only; omega⟩
            · refine ⟨by simpa using hlt, by simpa using hlev, by simp, ?_⟩
              simp only [iabs_neg]; omega
          · have := ht.bt0; simp only; omega
          · simp only
            have h0 := h.levNonneg hlt
            by_cases hle : s.levels (iabs lit) ≤ a.btlevel
            · rw [Int.max_eq_left hle]
              rcases ht.bt with e | ⟨l, hl, e⟩
              · exact Or.inl e
              · exact Or.inr ⟨l, by simp [hl], e⟩
            · rw [Int.max_eq_right (by omega)]
              exact Or.inr ⟨-lit, by simp, by simp⟩
          · simp only
            rw [List.nodup_append]
            refine ⟨ht.nd, by simp, ?_⟩
            intro x hx y hy e
            simp only [List.mem_singleton] at hy
            subst hy; subst e
            have := (ht.lrn _ hx).2.2.1
            rw [iabs_neg] at this
            exact hs this
          · intro x hx hxs hxl
            simp only [List.mem_append, List.mem_singleton] at hxs ⊢
            rcases hxs with hxs | hxs
            · exact Or.inl (ht.low x hx hxs hxl)
            · right
              rcases (iabs_eq_iff x lit).1 hxs with e | e
              · rw [e]
              · subst e; exact absurd hx (h.cons hlt)
        obtain ⟨h1, h2, h3⟩ := ih hTI hr'
        refine ⟨h1, ?_, fun l hl => h3 l (by simp [hl])⟩
        intro v; rw [h2]; simp only [List.map_cons, List.mem_cons, List.mem_append, List.not_mem_nil, or_false, or_assoc]

theorem undoOne_lim_eq (s : Solver) : s.undoOne.trailLim = s.trailLim := by
  unfold undoOne; split <;> rfl

/-- popping the trail up to a seen literal of the current level -/
theorem popSeen_spec {F U D} (seen : List Int) (t : List Int) {s : Solver} (h : Base F U D s) (hts : s.trail = t)
    (ct : List Nat)
    (hx : ∃ x ∈ t, iabs x ∈ seen ∧ s.levels (iabs x) = (s.decisionLevel : Int)) :
    ∃ p cid s' ct' pre, popSeen seen t s ct = .ok (p, cid, s', ct') ∧ t = pre ++ p :: s'.trail ∧
      (∀ y ∈ pre, iabs y ∉ seen) ∧ iabs p ∈ seen ∧ s.levels (iabs p) = (s.decisionLevel : Int) ∧
      s.assigning (iabs p) = some cid ∧ Base F U D s' ∧ Undone s s' ∧ s'.trailLim = s.trailLim ∧
      s'.levels (iabs p) = -1 := by
  induction t generalizing s ct with
  | nil => simp at hx
  | cons q rest ih =>
    obtain ⟨x, hxt, hxs, hxl⟩ := hx
    obtain ⟨cid, hcid, -⟩ := h.reas q rest (by rw [hts]; exact List.suffix_rfl)
    have hlim : ∀ n ∈ s.trailLim, n ≤ rest.length := by
      intro n hn
      rcases List.mem_cons.1 hxt with e | e
      · subst e; exact h.pos_of_lev (r := rest) (by rw [hts]; exact List.suffix_rfl) hxl n hn
      · obtain ⟨r', hr'⟩ := mem_suffix e
        have := h.pos_of_lev (hr'.trans (by rw [hts]; exact List.suffix_cons _ _)) hxl n hn
        have := hr'.length_le
        simp only [List.length_cons] at this
        omega
    have hb := undoOne_base h hts hlim
    have hu := undoOne_undone h hts
    have htr : s.undoOne.trail = rest := by unfold undoOne; rw [hts]
    simp only [popSeen, hcid]
    split
    · rename_i hqs
      refine ⟨q, cid, s.undoOne, ct ++ [cid], [], rfl, by simp [htr], by simp, hqs,
        h.lev_of_pos (r := rest) (by rw [hts]; exact List.suffix_rfl) hlim, hcid, hb, hu, undoOne_lim_eq s, ?_⟩
      unfold undoOne; rw [hts]; simp
    · rename_i hqs
      have hxr : x ∈ rest := by
        rcases List.mem_cons.1 hxt with e | e
        · subst e; exact absurd hxs hqs
        · exact e
      have hd : s.undoOne.decisionLevel = s.decisionLevel := by unfold decisionLevel; rw [undoOne_lim_eq]
      obtain ⟨p, c', s', ct', pre, g1, g2, g3, g4, g5, g6, g7, g8, g9, g10⟩ := ih hb htr (ct ++ [cid])
        ⟨x, hxr, hxs, by rw [hu.lev x (by rw [htr]; exact hxr), hd]; exact hxl⟩
      have hpr : p ∈ rest := by rw [g2]; simp
      refine ⟨p, c', s', ct', q :: pre, g1, by rw [g2]; rfl, ?_, g4, ?_, ?_, g7, hu.trans g8, g9.trans (undoOne_lim_eq s), g10⟩
      · intro y hy
        rcases List.mem_cons.1 hy with rfl | hy
        · exact hqs
        · exact g3 y hy
      · rw [← hu.lev p (by rw [htr]; exact hpr), ← hd]; exact g5
      · rw [← hu.assigning]; exact g6

/-- what `analyze` has established when its loop ends -/
structure AnaOut (F : List (List Int)) (U : List Int) (D : Int → List Int → Prop) (s s' : Solver) (a : Ana) (p : Int) : Prop where
  base : Base F U D s'
  und : Undone s s'
  lim : s'.trailLim = s.trailLim
  psuf : (p :: s'.trail) <:+ s.trail
  plev : s.levels (iabs p) = (s.decisionLevel : Int)
  pgone : s'.levels (iabs p) = -1
  lrn : ∀ l ∈ a.learned, -l ∈ s'.trail ∧ s'.levels (iabs l) ≠ (s.decisionLevel : Int) ∧ s'.levels (iabs l) ≤ a.btlevel
  bt0 : 0 ≤ a.btlevel
  bt : a.btlevel = 0 ∨ ∃ l ∈ a.learned, s'.levels (iabs l) = a.btlevel
  nd : a.learned.Nodup
  ent : Entails F (a.learned ++ [-p])

theorem mem_calculateReason (lits : List Int) (p : Option Int) (x : Int) :
    x ∈ calculateReason lits p ↔ -x ∈ lits ∧ some (-x) ≠ p := by
  unfold calculateReason
  simp only [List.mem_map, List.mem_filter, decide_eq_true_eq]
  constructor
  · rintro ⟨l, ⟨h1, h2⟩, rfl⟩; simpa using ⟨h1, h2⟩
  · rintro ⟨h1, h2⟩; exact ⟨-x, ⟨h1, h2⟩, by simp⟩

theorem Undone.dl {s s' : Solver} (h : s'.trailLim = s.trailLim) : s'.decisionLevel = s.decisionLevel := by
  unfold decisionLevel; rw [h]

theorem analyzeLoop_spec {F U D} (fuel : Nat) {s : Solver} {a : Ana} {conflict : Nat} {p : Option Int} {ct : List Nat}
    (h : Base F U D s) (ht : TI s a) (hf : s.trail.length < fuel)
    (hr : ∀ x ∈ calculateReason (s.litsOf conflict) p, x ∈ s.trail)
    (hJ : ∀ m, Sat m F → (∀ l ∈ a.learned, ¬ litTrue m l) →
      (∀ x ∈ s.trail, iabs x ∈ a.seen → s.levels (iabs x) = (s.decisionLevel : Int) → litTrue m x) →
      (∀ x ∈ calculateReason (s.litsOf conflict) p, litTrue m x) → False)
    (hpos : 0 < a.counter ∨ ∃ x ∈ calculateReason (s.litsOf conflict) p, s.levels (iabs x) = (s.decisionLevel : Int)) :
    ∃ s' a' p' ct', analyzeLoop fuel s a conflict p ct = .ok (s', a', p', ct') ∧ AnaOut F U D s s' a' p' := by
  induction fuel generalizing s a conflict p ct with
  | zero => omega
  | succ fuel ih =>
    obtain ⟨hT, hseen, hlrn⟩ := traceReason_spec h (calculateReason (s.litsOf conflict) p) ht hr
    generalize hreason : calculateReason (s.litsOf conflict) p = reason at *
    generalize ha' : s.traceReason reason a = a' at *
    -- a seen literal of the current level exists
    have hex : ∃ x ∈ s.trail, iabs x ∈ a'.seen ∧ s.levels (iabs x) = (s.decisionLevel : Int) := by
      rcases hpos with hpos | ⟨x, hx, hxl⟩
      · rw [ht.cnt] at hpos
        have : 0 < s.trail.countP (fun x => decide (iabs x ∈ a.seen) &&
          decide (s.levels (iabs x) = (s.decisionLevel : Int))) := by omega
        rw [List.countP_pos_iff] at this
        obtain ⟨x, hx, hh⟩ := this
        simp only [Bool.and_eq_true, decide_eq_true_eq] at hh
        exact ⟨x, hx, (hseen _).2 (Or.inl hh.1), hh.2⟩
      · exact ⟨x, hr x hx, (hseen _).2 (Or.inr (List.mem_map_of_mem hx)), hxl⟩
    -- the clause implied so far
    have hJ' : ∀ m, Sat m F → (∀ l ∈ a'.learned, ¬ litTrue m l) →
      (∀ x ∈ s.trail, iabs x ∈ a'.seen → s.levels (iabs x) = (s.decisionLevel : Int) → litTrue m x) → False := by
      intro m hm h1 h2
      refine hJ m hm (fun l hl => h1 l (hlrn l hl)) (fun x hx hxs => h2 x hx ((hseen _).2 (Or.inl hxs))) ?_
      intro x hx
      have hxt := hr x hx
      have hxs : iabs x ∈ a'.seen := (hseen _).2 (Or.inr (List.mem_map_of_mem hx))
      by_cases hxl : s.levels (iabs x) = (s.decisionLevel : Int)
      · exact h2 x hxt hxs hxl
      · have h3 := h1 _ (hT.low x hxt hxs hxl)
        have h4 := litTrue_neg m (h.tnz x hxt)
        rw [h4] at h3
        exact Classical.not_not.1 h3
    obtain ⟨q, cid, s', ct', pre, g1, g2, g3, g4, g5, g6, g7, g8, g9, g10⟩ := popSeen_spec a'.seen s.trail h rfl ct hex
    have hd := Undone.dl g9
    have hqs : (q :: s'.trail) <:+ s.trail := by rw [g2]; exact List.suffix_append _ _
    have hqt : q ∈ s.trail := suffix_mem hqs
    have hlow : ∀ l ∈ a'.learned, -l ∈ s'.trail := by
      intro l hl
      obtain ⟨k1, k2, k3, -⟩ := hT.lrn l hl
      rw [g2] at k1
      simp only [List.mem_append, List.mem_cons] at k1
      rcases k1 with k1 | k1 | k1
      · exact absurd (by rw [iabs_neg]; exact k3) (g3 _ k1)
      · exfalso; apply k2; rw [← iabs_neg l, k1]; exact g5
      · exact k1
    have hlevs : ∀ x ∈ s'.trail, s'.levels (iabs x) = s.levels (iabs x) := g8.lev
    have hlevl : ∀ l ∈ a'.learned, s'.levels (iabs l) = s.levels (iabs l) := by
      intro l hl; have := hlevs (-l) (hlow l hl); simpa using this
    have hTI' : TI s' { a' with counter := a'.counter - 1 } := by
      refine ⟨?_, ?_, hT.bt0, ?_, hT.nd, ?_⟩
      · simp only
        rw [hT.cnt, g2, List.countP_append, List.countP_cons]
        have e0 : pre.countP (fun x => decide (iabs x ∈ a'.seen) && decide (s.levels (iabs x) = (s.decisionLevel : Int))) = 0 := by
          rw [List.countP_eq_zero]
          intro y hy; simp [g3 y hy]
        have e1 : s'.trail.countP (fun x => decide (iabs x ∈ a'.seen) && decide (s'.levels (iabs x) = (s'.decisionLevel : Int)))
            = s'.trail.countP (fun x => decide (iabs x ∈ a'.seen) && decide (s.levels (iabs x) = (s.decisionLevel : Int))) := by
          apply List.countP_congr
          intro y hy
          rw [hlevs y hy, hd]
        rw [e0, e1]
        simp only [g4, g5, decide_true, Bool.and_self, if_true]
        omega
      · intro l hl
        obtain ⟨k1, k2, k3, k4⟩ := hT.lrn l hl
        exact ⟨hlow l hl, by rw [hlevl l hl, hd]; exact k2, k3, by rw [hlevl l hl]; exact k4⟩
      · rcases hT.bt with e | ⟨l, hl, e⟩
        · exact Or.inl e
        · exact Or.inr ⟨l, hl, by rw [hlevl l hl]; exact e⟩
      · intro x hx hxs hxl
        exact hT.low x (g8.trail.subset hx) hxs (by rw [hlevs x hx, hd] at hxl; exact hxl)
    have hJ2 : ∀ m, Sat m F → (∀ l ∈ a'.learned, ¬ litTrue m l) →
      (∀ x ∈ s'.trail, iabs x ∈ a'.seen → s'.levels (iabs x) = (s'.decisionLevel : Int) → litTrue m x) →
      litTrue m q → False := by
      intro m hm h1 h2 h3
      apply hJ' m hm h1
      intro x hx hxs hxl
      rw [g2] at hx
      simp only [List.mem_append, List.mem_cons] at hx
      rcases hx with hx | hx | hx
      · exact absurd hxs (g3 x hx)
      · rw [hx]; exact h3
      · exact h2 x hx hxs (by rw [hlevs x hx, hd]; exact hxl)
    simp only [analyzeLoop, hreason, ha', g1]
    split
    · rename_i hc0
      refine ⟨s', _, q, ct', rfl, g7, g8, g9, hqs, g5, g10, ?_, hT.bt0, hTI'.bt, hT.nd, ?_⟩
      · intro l hl
        obtain ⟨k1, k2, k3, k4⟩ := hTI'.lrn l hl
        exact ⟨k1, by rw [← hd]; exact k2, k4⟩
      · intro m hm
        apply Classical.byContradiction
        intro hno
        have hz := hTI'.cnt
        simp only at hz
        rw [hc0] at hz
        have hz : s'.trail.countP (fun x => decide (iabs x ∈ a'.seen) && decide (s'.levels (iabs x) = (s'.decisionLevel : Int))) = 0 := by omega
        rw [List.countP_eq_zero] at hz
        apply hJ2 m hm
        · intro l hl hlt; exact hno ⟨l, by simp [hl], hlt⟩
        · intro x hx hxs hxl; exact absurd (by simp [hxs, hxl]) (hz x hx)
        · apply Classical.byContradiction
          intro hq
          exact hno ⟨-q, by simp, (litTrue_neg m (h.tnz q hqt)).2 hq⟩
    · rename_i hc0
      have hpos' : 0 < a'.counter - 1 := by
        have hz := hTI'.cnt
        simp only at hz
        omega
      have hex' : ∃ x ∈ s'.trail, iabs x ∈ a'.seen ∧ s'.levels (iabs x) = (s'.decisionLevel : Int) := by
        have hz := hTI'.cnt
        simp only at hz
        have : 0 < s'.trail.countP (fun x => decide (iabs x ∈ a'.seen) &&
          decide (s'.levels (iabs x) = (s'.decisionLevel : Int))) := by omega
        rw [List.countP_pos_iff] at this
        obtain ⟨x, hx, hh⟩ := this
        simp only [Bool.and_eq_true, decide_eq_true_eq] at hh
        exact ⟨x, hx, hh.1, hh.2⟩
      -- so `q` is not a decision
      obtain ⟨cid', hcid', hre⟩ := h.reas q s'.trail hqs
      rw [g6] at hcid'
      simp only [Option.some.injEq] at hcid'
      subst hcid'
      have hre : cid ∈ s.clauses ∧ q ∈ s.litsOf cid ∧ ∀ l ∈ s.litsOf cid, l ≠ q → -l ∈ s'.trail := by
        rcases hre with ⟨k1, -, -⟩ | hre
        · exfalso
          obtain ⟨x, hx, -, hxl⟩ := hex'
          obtain ⟨r', hr'⟩ := mem_suffix hx
          have := g7.pos_of_lev hr' hxl _ (by rw [g9]; exact k1)
          have := hr'.length_le
          simp only [List.length_cons] at this
          omega
        · exact hre
      have hlits : s'.litsOf cid = s.litsOf cid := by unfold litsOf; rw [g8.heap]
      have hlen : s'.trail.length < s.trail.length := by
        have := hqs.length_le; simp only [List.length_cons] at this; omega
      obtain ⟨s2, a2, p2, ct2, k1, k2⟩ := ih (s := s') (a := { a' with counter := a'.counter - 1 }) (conflict := cid)
        (p := some q) (ct := ct') g7 hTI' (by omega)
        (by
          intro x hx
          rw [mem_calculateReason, hlits] at hx
          have := hre.2.2 (-x) hx.1 (by intro e; exact hx.2 (by rw [e]))
          simpa using this)
        (by
          intro m hm h1 h2 h3
          apply hJ2 m hm h1 h2
          obtain ⟨l, hl, hlt⟩ := h.cent cid hre.1 m hm
          by_cases hlq : l = q
          · exact hlq ▸ hlt
          · exfalso
            have : litTrue m (-l) := h3 (-l) (by
              rw [mem_calculateReason, hlits]
              refine ⟨by simpa using hl, ?_⟩
              simpa using hlq)
            exact (litTrue_neg m (h.cnz cid hre.1 l hl)).1 this hlt)
        (Or.inl hpos')
      refine ⟨s2, a2, p2, ct2, k1, k2.base, g8.trans k2.und, k2.lim.trans g9, k2.psuf.trans g8.trail, ?_, k2.pgone, ?_, k2.bt0, k2.bt, k2.nd, k2.ent⟩
      · rw [← hlevs p2 (suffix_mem k2.psuf), ← hd]; exact k2.plev
      · rw [← hd]; exact k2.lrn

/-- `analyze` called on a conflict: never fails; the learned clause is a consequence of `F`. -/
theorem analyze_spec {R F U D} {s : Solver} {conflict : Nat} (h : Conf R F U D conflict s) :
    ∃ s' a p ct, analyzeLoop (s.trail.length + 1) s ⟨[], 0, [], 0⟩ conflict none [conflict] = .ok (s', a, p, ct) ∧
      AnaOut F U D s s' a p := by
  apply analyzeLoop_spec _ h.base
  · refine ⟨?_, by simp, by simp, Or.inl rfl, by simp, by simp⟩
    simp
  · omega
  · intro x hx
    rw [mem_calculateReason] at hx
    have := h.fls _ hx.1
    simpa using this
  · intro m hm _ _ h3
    obtain ⟨l, hl, hlt⟩ := h.base.cent conflict h.mem m hm
    have : litTrue m (-l) := h3 (-l) (by rw [mem_calculateReason]; simpa using hl)
    exact (litTrue_neg m (h.base.cnz conflict h.mem l hl)).1 this hlt
  · right
    obtain ⟨l, hl, hlv⟩ := h.cur
    exact ⟨-l, by rw [mem_calculateReason]; simpa using hl, by simpa using hlv⟩

end Solver
end Verif.Sat
