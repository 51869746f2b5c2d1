import Verif.Spec.VGaussFit
import Verif.Proofs.VObjectFit
import Verif.Proofs.GaussStart
import Verif.Proofs.VGaussianKinds

/-!
# `_init` of a `VariationalGaussianHMM`
-/

set_option autoImplicit false

namespace Verif
open FloatLike XF Hmmc Spec
open scoped Classical

variable {G : Type} {R : RandomLib XF G} {nc nf : ℕ}

/-! ## Clusters -/

theorem nearest_unique {c : Fin nc → Fin nf → ℝ} {x : Fin nf → ℝ} {i j : Fin nc} (hi : Nearest c x i)
    (hj : Nearest c x j) : i = j := by
  rcases lt_trichotomy i j with h | h | h
  · exact absurd (hj.2 i h) (not_lt.2 (hi.1 j))
  · exact h
  · exact absurd (hi.2 j h) (not_lt.2 (hj.1 i))

/-- The first minimum of `f`. -/
theorem firstMin {n : ℕ} (f : Fin n → ℝ) : ∀ (l : List (Fin n)) (b : Fin n), (∀ j ∈ l, b ≤ j) → l.Pairwise (· ≤ ·) →
    let r := l.foldl (fun best j => if f j < f best then j else best) b
    (r = b ∨ r ∈ l) ∧ f r ≤ f b ∧ (∀ j ∈ l, f r ≤ f j) ∧ (b < r → f r < f b) ∧ ∀ j ∈ l, j < r → f r < f j := by
  intro l
  induction l with
  | nil => intro b _ _; simp
  | cons a l ih =>
    intro b hb hp
    rw [List.pairwise_cons] at hp
    have hba := hb a List.mem_cons_self
    simp only [List.foldl_cons]
    by_cases h : f a < f b
    · rw [if_pos h]
      obtain ⟨h1, h2, h3, h4, h5⟩ := ih a hp.1 hp.2
      refine ⟨.inr (by simpa using h1), h2.trans h.le, ?_, fun _ => h2.trans_lt h, ?_⟩
      · intro j hj
        rcases List.mem_cons.1 hj with rfl | hj
        · exact h2
        · exact h3 j hj
      · intro j hj hlt
        rcases List.mem_cons.1 hj with rfl | hj
        · exact h4 hlt
        · exact h5 j hj hlt
    · rw [if_neg h]
      obtain ⟨h1, h2, h3, h4, h5⟩ := ih b (fun j hj => hb j (List.mem_cons_of_mem _ hj)) hp.2
      refine ⟨h1.imp id (List.mem_cons_of_mem _), h2, ?_, h4, ?_⟩
      · intro j hj
        rcases List.mem_cons.1 hj with rfl | hj
        · exact h2.trans (not_lt.1 h)
        · exact h3 j hj
      · intro j hj hlt
        rcases List.mem_cons.1 hj with rfl | hj
        · exact (h4 (hba.trans_lt hlt)).trans_le (not_lt.1 h)
        · exact h5 j hj hlt

theorem sqDist_fin (x y : Fin nf → ℝ) : sqDist (fun k => fin (x k)) (fun k => fin (y k)) = fin (∑ k, (x k - y k) ^ 2) := by
  simp only [sqDist, fin_sub, fin_mul, sumF_fin]
  congr 1
  exact Finset.sum_congr rfl fun k _ => by ring

theorem nearestCentre_nearest [NeZero nc] (c : Fin nc → Fin nf → ℝ) (x : Fin nf → ℝ) :
    Nearest c x (nearestCentre (fun i k => fin (c i k)) fun k => fin (x k)) := by
  have h := firstMin (fun i => ∑ k, (x k - c i k) ^ 2) (List.finRange nc) 0 (fun j _ => Fin.zero_le j)
    ((List.pairwise_lt_finRange nc).imp fun h => h.le)
  have e : nearestCentre (fun i k => fin (c i k)) (fun k => fin (x k)) =
      (List.finRange nc).foldl (fun best j => if ∑ k, (x k - c j k) ^ 2 < ∑ k, (x k - c best k) ^ 2 then j else best) 0 := by
    unfold nearestCentre
    simp only [sqDist_fin, fin_lt, decide_eq_true_eq]
  rw [e]
  obtain ⟨-, -, h3, -, h5⟩ := h
  exact ⟨fun j => h3 j (List.mem_finRange j), fun j hj => h5 j (List.mem_finRange j) hj⟩

theorem nearestCentre_iff [NeZero nc] (c : Fin nc → Fin nf → ℝ) (x : Fin nf → ℝ) (i : Fin nc) :
    Nearest c x i ↔ nearestCentre (fun i k => fin (c i k)) (fun k => fin (x k)) = i :=
  ⟨fun h => nearest_unique (nearestCentre_nearest c x) h, fun h => h ▸ nearestCentre_nearest c x⟩

theorem le_foldl_max (l : List ℕ) : ∀ b, b ≤ l.foldl Nat.max b ∧ ∀ x ∈ l, x ≤ l.foldl Nat.max b := by
  induction l with
  | nil => intro b; simp
  | cons a l ih =>
    intro b
    obtain ⟨h1, h2⟩ := ih (Nat.max b a)
    refine ⟨(Nat.le_max_left b a).trans h1, fun x hx => ?_⟩
    rcases List.mem_cons.1 hx with rfl | hx
    · exact (Nat.le_max_right b x).trans h1
    · exact h2 x hx

theorem natMax_le {m : ℕ} (l : List ℕ) : ∀ b, b ≤ m → (∀ x ∈ l, x ≤ m) → l.foldl Nat.max b ≤ m := by
  induction l with
  | nil => intro b hb _; exact hb
  | cons a l ih =>
    intro b hb h
    exact ih _ (Nat.max_le.2 ⟨hb, h a List.mem_cons_self⟩) fun x hx => h x (List.mem_cons_of_mem _ hx)

/-- All counts, if the last index occurs. -/
theorem bincount_eq {n : ℕ} {l : List ℕ} (hl : ∀ x ∈ l, x ≤ n) (hn : n ∈ l) :
    bincount l = (List.range (n + 1)).map fun i => l.count i := by
  have h : l.foldl Nat.max 0 = n := le_antisymm (natMax_le l 0 n.zero_le hl) ((le_foldl_max l 0).2 n hn)
  cases l with
  | nil => simp at hn
  | cons a l => simp only [bincount, h]

theorem sum_count {m : ℕ} {l : List ℕ} (hl : ∀ x ∈ l, x < m) : ((List.range m).map fun i => l.count i).sum = l.length := by
  have h : ((List.range m).map fun i => l.count i).sum = ∑ i ∈ Finset.range m, l.count i := rfl
  rw [h]
  induction l with
  | nil => simp
  | cons a l ih =>
    have ha : a < m := hl a List.mem_cons_self
    simp only [List.count_cons, Finset.sum_add_distrib]
    rw [ih (fun x hx => hl x (List.mem_cons_of_mem _ hx)) rfl]
    simp [ha]

theorem bincount_sum (l : List ℕ) : (bincount l).sum = l.length := by
  cases hl : l with
  | nil => rfl
  | cons a t =>
    simp only [bincount]
    exact sum_count fun x hx => Nat.lt_succ_of_le ((le_foldl_max (a :: t) 0).2 x hx)

section
variable [NeZero nc]

theorem count_label (c : Fin nc → Fin nf → ℝ) (l : List (Fin nf → ℝ)) (i : Fin nc) :
    ((l.map Gaussian.row).map fun x => (nearestCentre (fun i k => fin (c i k)) x).val).count i.val = clusterSize c l i := by
  rw [List.map_map, List.count, List.countP_map, clusterSize]
  congr 1
  funext x
  simp only [Function.comp_apply, nearestCentre_iff, Gaussian.row]
  rw [Bool.eq_iff_iff, decide_eq_true_eq, beq_iff_eq, Fin.ext_iff]
  rfl

theorem clusterCounts_sum (c : Fin nc → Fin nf → ℝ) (l : List (Fin nf → ℝ)) :
    (clusterCounts (fun i k => fin (c i k)) (l.map Gaussian.row)).sum = l.length := by
  unfold clusterCounts
  rw [bincount_sum]
  simp

/-- `bincount` lists the sizes of all clusters if the last one is not empty. -/
theorem clusterCounts_eq {c : Fin nc → Fin nf → ℝ} {l : List (Fin nf → ℝ)} (h : ∀ i, clusterSize c l i ≠ 0) :
    clusterCounts (fun i k => fin (c i k)) (l.map Gaussian.row) = List.ofFn fun i => clusterSize c l i := by
  obtain ⟨n, hn⟩ := Nat.exists_eq_succ_of_ne_zero (NeZero.ne nc)
  unfold clusterCounts
  rw [bincount_eq (n := n)]
  · refine List.ext_getElem (by simp [hn]) fun k h1 h2 => ?_
    have hk : k < nc := by simpa using h2
    rw [List.getElem_map, List.getElem_range, List.getElem_ofFn]
    exact count_label c l ⟨k, hk⟩
  · intro x hx
    obtain ⟨r, -, rfl⟩ := List.mem_map.1 hx
    have := (nearestCentre (fun i k => fin (c i k)) r).2
    omega
  · have := h ⟨n, by omega⟩
    rw [← count_label] at this
    exact List.count_pos_iff.1 (Nat.pos_of_ne_zero this)

theorem sum_clusterSize (c : Fin nc → Fin nf → ℝ) (l : List (Fin nf → ℝ)) : ∑ i, clusterSize c l i = l.length := by
  simp only [← count_label c l]
  have := sum_count (m := nc) (l := (l.map Gaussian.row).map fun x => (nearestCentre (fun i k => fin (c i k)) x).val) (by
    intro x hx
    obtain ⟨r, -, rfl⟩ := List.mem_map.1 hx
    exact (nearestCentre (fun i k => fin (c i k)) r).2)
  rw [List.length_map, List.length_map] at this
  rw [← this, Fin.sum_univ_eq_sum_range (fun i => ((l.map Gaussian.row).map fun x =>
    (nearestCentre (fun i k => fin (c i k)) x).val).count i) nc]
  rfl

end

/-! ## Arrays -/

theorem storesDof_arg {ty : CovType} {a : Option (NdArray XF)} {ν : Fin nc → ℝ} (h : DofArg ty nf a ν) :
    StoresDof ty ν (a.getD (defaultDof ty nc nf)) := by
  cases h with
  | default => cases ty <;> first | exact ⟨_, rfl, fun _ => rfl⟩ | rfl
  | array a ν h => exact h

theorem storesScale_arg {ty : CovType} {a : Option (NdArray XF)} {S : Fin nc → Matrix (Fin nf) (Fin nf) ℝ}
    (h : ScaleArg ty a S) : StoresScale ty S (a.getD (defaultScale ty nc nf)) := by
  have hq : (ofRat (1 / 1000) : XF) = fin (1 / 1000) := by rw [ofRat_def]; congr 1; norm_num
  have hone : ∀ k l : Fin nf, ((if k = l then 1 else 0) * ofRat (1 / 1000) : XF) =
      fin (((1 / 1000 : ℝ) • (1 : Matrix (Fin nf) (Fin nf) ℝ)) k l) := by
    intro k l
    rw [hq, Matrix.smul_apply, Matrix.one_apply]
    split <;> simp
  cases h with
  | array a S h => exact h
  | default =>
    cases ty with
    | full => simp only [Option.getD_none, defaultScale, hone]; rfl
    | tied =>
      simp only [Option.getD_none, defaultScale, hone]
      exact ⟨_, rfl, fun _ => rfl⟩
    | diag =>
      simp only [Option.getD_none, defaultScale, hq]
      refine ⟨fun _ _ => 1 / 1000, rfl, fun _ => ?_⟩
      rw [← Matrix.smul_one_eq_diagonal]
    | spherical =>
      simp only [Option.getD_none, defaultScale, hq]
      exact ⟨fun _ => 1 / 1000, rfl, fun _ => rfl⟩

theorem storesDof_shape {ty : CovType} {ν : Fin nc → ℝ} {a : NdArray XF} (h : StoresDof ty ν a) :
    a.shape = dofShape ty nc := by
  cases ty <;> first | (obtain ⟨x, rfl, -⟩ := h; rfl) | (cases h; rfl)

theorem storesScale_shape {ty : CovType} {S : Fin nc → Matrix (Fin nf) (Fin nf) ℝ} {a : NdArray XF}
    (h : StoresScale ty S a) : a.shape = scaleShape ty nc nf := by
  cases ty <;> first | (obtain ⟨x, rfl, -⟩ := h; rfl) | (cases h; rfl)

theorem allowed_of_stores [NeZero nc] {ty : CovType} {p : Fin nc → NW nf} {a b : NdArray XF}
    (h1 : StoresDof ty (fun i => (p i).ν) a) (h2 : StoresScale ty (fun i => (p i).S) b) : Allowed ty p := by
  cases ty with
  | full => trivial
  | tied =>
    obtain ⟨x, -, hx⟩ := h1
    obtain ⟨M, -, hM⟩ := h2
    exact fun i => ⟨(hx i).trans (hx 0).symm, (hM i).trans (hM 0).symm⟩
  | diag =>
    obtain ⟨v, -, hv⟩ := h2
    intro i
    have hv : (p i).S = _ := hv i
    rw [hv, Matrix.diag_diagonal]
  | spherical =>
    obtain ⟨v, -, hv⟩ := h2
    exact fun i => ⟨v i, hv i⟩

/-- What the covariance type allows can be stored. -/
theorem stores_of_allowed [NeZero nc] {ty : CovType} {p : Fin nc → NW nf} (h : Allowed ty p) :
    (∃ a, StoresDof ty (fun i => (p i).ν) a) ∧ (∃ a, StoresScale ty (fun i => (p i).S) a) ∧
      ∃ a, StoresScale ty (fun i => (p i).covar) a := by
  cases ty with
  | full => exact ⟨⟨_, rfl⟩, ⟨_, rfl⟩, ⟨_, rfl⟩⟩
  | tied =>
    exact ⟨⟨_, _, rfl, fun i => (h i).1⟩, ⟨_, _, rfl, fun i => (h i).2⟩, ⟨_, _, rfl, fun i => by
      show (p i).ν⁻¹ • (p i).S = (p 0).ν⁻¹ • (p 0).S
      rw [(h i).1, (h i).2]⟩⟩
  | diag =>
    refine ⟨⟨_, rfl⟩, ⟨_, _, rfl, fun i => h i⟩, ⟨_, fun i k => (p i).covar k k, rfl, fun i => ?_⟩⟩
    show (p i).ν⁻¹ • (p i).S = Matrix.diagonal fun k => ((p i).ν⁻¹ • (p i).S) k k
    conv_lhs => rw [h i]
    ext k l
    by_cases hkl : k = l
    · subst hkl; simp
    · simp [hkl]
  | spherical =>
    choose c hc using h
    exact ⟨⟨_, rfl⟩, ⟨_, c, rfl, hc⟩, ⟨_, fun i => (p i).ν⁻¹ * c i, rfl, fun i => by
      show (p i).ν⁻¹ • (p i).S = _
      rw [hc i, smul_smul]⟩⟩

/-! ## The scale from the data -/

theorem bcast_ofFn {n : ℕ} (N : Fin n → ℕ) : ∃ f, bcastIdx (List.ofFn N).length n = some f ∧
    ∀ i, (List.ofFn N).get (f i) = N i := by
  have h : (List.ofFn N).length = n := List.length_ofFn
  refine ⟨fun i => i.cast h.symm, by rw [bcastIdx, dif_pos h], fun i => ?_⟩
  rw [List.get_ofFn]
  rfl

theorem timesCounts_vec (N : Fin nc → ℕ) (v : Fin nc → ℝ) :
    timesCounts (List.ofFn N) (vec v) = .ok (vec fun i => v i * N i) := by
  obtain ⟨f, h1, h2⟩ := bcast_ofFn N
  simp only [vec, timesCounts, h1, h2, ofNat'_def, fin_mul]

theorem timesCounts_mat (N : Fin nc → ℕ) {n : ℕ} (v : Fin nc → Fin n → ℝ) :
    timesCounts (List.ofFn N) (mat v) = .ok (mat fun i k => v i k * N i) := by
  obtain ⟨f, h1, h2⟩ := bcast_ofFn N
  simp only [mat, timesCounts, h1, h2, ofNat'_def, fin_mul]

theorem timesCounts_cube (N : Fin nc → ℕ) {m n : ℕ} (v : Fin nc → Fin m → Fin n → ℝ) :
    timesCounts (List.ofFn N) (cube v) = .ok (cube fun i k l => v i k l * N i) := by
  obtain ⟨f, h1, h2⟩ := bcast_ofFn N
  simp only [cube, timesCounts, h1, h2, ofNat'_def, fin_mul]

theorem countsArr_ofFn (N : Fin nc → ℕ) : (countsArr (List.ofFn N) : NdArray XF) = vec fun i => (N i : ℝ) := by
  unfold countsArr vec
  have h : (List.ofFn N).length = nc := List.length_ofFn
  have key : ∀ (l : List ℕ) (n : ℕ) (hl : l.length = n), (NdArray.d1 (fun i : Fin l.length => ofNat' (l.get i)) : NdArray XF) =
      NdArray.d1 fun i : Fin n => ofNat' (l.get (i.cast hl.symm)) := by
    intro l n hl; subst hl; rfl
  rw [key _ _ h]
  congr 1
  funext i
  rw [List.get_ofFn]
  rfl

theorem meanL_const {n : ℕ} (hn : n ≠ 0) (x : ℝ) : meanL ((List.finRange n).map fun _ => fin x) = fin x := by
  have h : (List.finRange n).map (fun _ => fin x) = ((List.finRange n).map fun _ => x).map fin := by
    simp
  have hne : (List.finRange n).map (fun _ => x) ≠ [] := by simpa using hn
  rw [h, meanL_fin hne]
  have hn' : (n : ℝ) ≠ 0 := by exact_mod_cast hn
  congr 1
  simp
  field_simp

theorem templatePart_pd (hf : nf ≠ 0) {ty : CovType} {T : Matrix (Fin nf) (Fin nf) ℝ} (hT : T.PosDef) :
    (templatePart ty T).PosDef := by
  have hpos : (0 : ℝ) < nf := by exact_mod_cast Nat.pos_of_ne_zero hf
  cases ty with
  | full => exact hT
  | tied => exact hT
  | diag => exact Matrix.PosDef.diagonal fun k => hT.diag_pos
  | spherical => exact Matrix.PosDef.one.smul (div_pos (sum_pos_of_pd hf hT) (by positivity))

/-- The setter accepts the template, and the posterior scale made from it. -/
theorem init_scale {eig : Eigvalsh XF} (he : EigvalshSpec eig) (hf : nf ≠ 0) (ty : CovType) {T : Matrix (Fin nf) (Fin nf) ℝ}
    (hT : T.PosDef) {counts : List ℕ} {N : Fin nc → ℕ} (hs : counts.sum = ∑ i, N i)
    (hN : ty ≠ .tied → counts = List.ofFn N) :
    ∃ c a, setCovars eig ty nc (distributeCovar (fun k j => fin (T k j)) ty nc) = .ok c ∧
      initScalePost ty counts c = .ok a ∧ StoresScale ty (fun i => shareCount ty (fun i => (N i : ℝ)) i • templatePart ty T) a ∧
      StoresDof ty (shareCount ty fun i => (N i : ℝ)) (initDofPost ty counts) := by
  cases ty with
  | full =>
    refine ⟨_, _, accept_full he hT, ?_, rfl, ?_⟩
    · rw [hN nofun]
      refine (timesCounts_cube N fun _ => T).trans ?_
      congr 2
      funext i k l
      simp [shareCount, templatePart, mul_comm]
    · show StoresDof _ _ (countsArr counts)
      rw [hN nofun, countsArr_ofFn]
      rfl
  | tied =>
    refine ⟨_, _, accept_tied he hT, rfl, ⟨(counts.sum : ℝ) • T, ?_, fun i => ?_⟩, ⟨counts.sum, rfl, fun i => ?_⟩⟩
    · simp only [mat, timesScalar, ofNat'_def, fin_mul, Matrix.smul_apply, smul_eq_mul, mul_comm]
    · simp [shareCount, templatePart, hs]
    · simp [shareCount, hs]
  | diag =>
    refine ⟨_, _, accept_diag hT, ?_, ⟨fun i k => T k k * N i, rfl, fun i => ?_⟩, ?_⟩
    · rw [hN nofun]
      exact timesCounts_mat N fun _ k => T k k
    · ext k l
      by_cases hkl : k = l
      · subst hkl; simp [shareCount, templatePart, mul_comm]
      · simp [templatePart, hkl]
    · show StoresDof _ _ (countsArr counts)
      rw [hN nofun, countsArr_ofFn]
      rfl
  | spherical =>
    refine ⟨_, _, accept_spherical hf hT, ?_, ⟨fun i => (∑ k, ∑ l, T k l) / (nf * nf) * N i, rfl, fun i => ?_⟩, ?_⟩
    · have h1 : meanAxis1 (mat fun (_ : Fin nc) (_ : Fin nf) => (∑ k, ∑ l, T k l) / (nf * nf)) =
          .ok (vec fun (_ : Fin nc) => (∑ k, ∑ l, T k l) / (nf * nf)) := by
        simp only [mat, meanAxis1, vec]
        rw [meanL_const hf]
      simp only [initScalePost, h1, bind, Except.bind]
      rw [hN nofun]
      exact timesCounts_vec N _
    · simp [shareCount, templatePart, smul_smul, mul_comm]
    · show StoresDof _ _ (countsArr counts)
      rw [hN nofun, countsArr_ofFn]
      rfl

/-! ## The two parts of `_init` -/

theorem needsMeans_iff (e : VEst XF G (VGaussAttrs XF)) : needsMeans e = true ↔ FreshMeans e := by
  unfold needsMeans needsInit FreshMeans
  by_cases h : 'm' ∈ e.initParams
  · simp [h]
  · simp [h, or_assoc]

theorem needsCovars_iff (e : VEst XF G (VGaussAttrs XF)) : needsCovars e = true ↔ FreshCovars e := by
  unfold needsCovars needsInit FreshCovars
  by_cases h : 'c' ∈ e.initParams
  · simp [h]
  · simp [h, or_assoc]

theorem vgaussInitMeans_eq {e : VEst XF G (VGaussAttrs XF)} [NeZero e.nComponents] {ty : CovType} {l : List (Fin nf → ℝ)}
    (hl : l ≠ []) (hg : VGivenGauss ty e l) (c : Fin e.nComponents → Fin nf → ℝ) {counts : List ℕ}
    (hcs : FreshMeans e → (∀ i, clusterSize c l i ≠ 0) ∧ counts = List.ofFn fun i => clusterSize c l i) :
    ∃ (m₀ m : Fin e.nComponents → Fin nf → ℝ) (β₀ β : Fin e.nComponents → ℝ),
      vgaussInitMeans (l.map Gaussian.row) (mat c) counts e = { e with sub := { e.sub with sub := { e.sub.sub with
        meansPri := some (mat m₀), meansPost := some (mat m), betaPri := some (vec β₀), betaPost := some (vec β) } } } ∧
      (∀ i, 0 < β₀ i) ∧ (∀ i, 0 < β i) ∧
      (¬ FreshMeans e → e.sub.sub.meansPri = some (mat m₀) ∧ e.sub.sub.meansPost = some (mat m) ∧
        e.sub.sub.betaPri = some (vec β₀) ∧ e.sub.sub.betaPost = some (vec β)) ∧
      (FreshMeans e → MeansArg l e.sub.sub.meansPrior m₀ ∧ BetaArg e.sub.sub.betaPrior β₀ ∧
        ∀ i, m i = c i ∧ β i = clusterSize c l i) := by
  by_cases hfr : FreshMeans e
  · obtain ⟨m, β, h1, h2, h3⟩ := hg.means hfr
    obtain ⟨k1, k2⟩ := hcs hfr
    refine ⟨m, c, β, fun i => clusterSize c l i, ?_, h3,
      fun i => Nat.cast_pos.2 (Nat.pos_of_ne_zero (k1 i)),
      fun h => absurd hfr h, fun _ => ⟨h1, h2, fun i => ⟨rfl, rfl⟩⟩⟩
    have e1 : e.sub.sub.meansPrior.getD (.d2 (m := e.nComponents) fun _ k => meanL ((l.map Gaussian.row).map fun r => r k)) = mat m := by
      generalize e.sub.sub.meansPrior = o at h1
      cases h1 with
      | default => simp only [Option.getD_none, meanL_col hl]; rfl
      | array m => rfl
    have e2 : e.sub.sub.betaPrior.getD (.d1 (n := e.nComponents) fun _ => 0 + 1) = vec β := by
      generalize e.sub.sub.betaPrior = o at h2
      cases h2 with
      | default => simp [vec]
      | array b => rfl
    unfold vgaussInitMeans
    rw [if_pos ((needsMeans_iff e).2 hfr), e1, e2, k2, countsArr_ofFn]
  · obtain ⟨m₀, m, β₀, β, h1, h2, h3, h4, h5, h6⟩ := hg.means_set hfr
    refine ⟨m₀, m, β₀, β, ?_, h5, h6, fun _ => ⟨h1, h2, h3, h4⟩, fun h => absurd h hfr⟩
    unfold vgaussInitMeans
    rw [if_neg fun h => hfr ((needsMeans_iff e).1 h), ← h1, ← h2, ← h3, ← h4]

theorem vgaussInitCovars_eq {eig : Eigvalsh XF} (he : EigvalshSpec eig) (hf : nf ≠ 0) {ty : CovType}
    {e : VEst XF G (VGaussAttrs XF)} (hnf : e.nFeatures = some nf) {l : List (Fin nf → ℝ)}
    (hg : FreshCovars e → ∃ (ν : Fin e.nComponents → ℝ) (S : Fin e.nComponents → Matrix (Fin nf) (Fin nf) ℝ),
      DofArg ty nf e.sub.sub.dofPrior ν ∧ ScaleArg ty e.sub.sub.scalePrior S ∧ (∀ i, (nf : ℝ) - 1 < ν i) ∧ ∀ i, (S i).PosDef)
    (hset : ¬ FreshCovars e → ∃ (ν₀ ν : Fin e.nComponents → ℝ) (S₀ S : Fin e.nComponents → Matrix (Fin nf) (Fin nf) ℝ),
      (∃ a, e.sub.sub.dofPri = some a ∧ StoresDof ty ν₀ a) ∧ (∃ a, e.sub.sub.dofPost = some a ∧ StoresDof ty ν a) ∧
      (∃ a, e.sub.sub.scalePri = some a ∧ StoresScale ty S₀ a) ∧ (∃ a, e.sub.sub.scalePost = some a ∧ StoresScale ty S a) ∧
      (∀ i, (nf : ℝ) - 1 < ν₀ i) ∧ (∀ i, (nf : ℝ) - 1 < ν i) ∧ (∀ i, (S₀ i).PosDef) ∧ ∀ i, (S i).PosDef)
    {counts : List ℕ} {N : Fin e.nComponents → ℕ} (hs : counts.sum = ∑ i, N i)
    (hN : FreshCovars e → 2 ≤ l.length ∧ (∀ i, (nf : ℝ) ≤ shareCount ty (fun i => (N i : ℝ)) i) ∧ (ty ≠ .tied → counts = List.ofFn N)) :
    ∃ (d₀ d s₀ s : NdArray XF) (cov : Option (NdArray XF)) (ν₀ ν : Fin e.nComponents → ℝ)
      (S₀ S : Fin e.nComponents → Matrix (Fin nf) (Fin nf) ℝ),
      vgaussInitCovars eig ty (l.map Gaussian.row) counts e = (.ok (), { e with sub := { e.sub with sub := { e.sub.sub with
        dofPri := some d₀, dofPost := some d, scalePri := some s₀, scalePost := some s, covars := cov } } }) ∧
      StoresDof ty ν₀ d₀ ∧ StoresDof ty ν d ∧ StoresScale ty S₀ s₀ ∧ StoresScale ty S s ∧
      (∀ i, (nf : ℝ) - 1 < ν₀ i) ∧ (∀ i, (nf : ℝ) - 1 < ν i) ∧ (∀ i, (S₀ i).PosDef) ∧ (∀ i, (S i).PosDef) ∧
      (¬ FreshCovars e → e.sub.sub.dofPri = some d₀ ∧ e.sub.sub.dofPost = some d ∧ e.sub.sub.scalePri = some s₀ ∧
        e.sub.sub.scalePost = some s) ∧
      (FreshCovars e → DofArg ty nf e.sub.sub.dofPrior ν₀ ∧ ScaleArg ty e.sub.sub.scalePrior S₀ ∧
        ∀ i, ν i = shareCount ty (fun i => (N i : ℝ)) i ∧ S i = ν i • templatePart ty (templateCov (1 / 1000) l)) := by
  by_cases hfr : FreshCovars e
  · obtain ⟨ν₀, S₀, h1, h2, h3, h4⟩ := hg hfr
    obtain ⟨h2l, k1, k2⟩ := hN hfr
    have hl : l ≠ [] := by rintro rfl; simp at h2l
    have hT : (templateCov (1 / 1000) l).PosDef := templateCov_pd (by norm_num) hl
    obtain ⟨c, a, c1, c2, c3, c4⟩ := init_scale (nc := e.nComponents) he hf ty hT hs k2
    have hpos : ∀ i, 0 < shareCount ty (fun i => (N i : ℝ)) i := fun i =>
      lt_of_lt_of_le (by exact_mod_cast Nat.pos_of_ne_zero hf) (k1 i)
    refine ⟨_, _, _, a, some c, ν₀, shareCount ty fun i => (N i : ℝ), S₀, _, ?_, storesDof_arg h1, c4, storesScale_arg h2, c3,
      h3, fun i => by linarith [k1 i], h4, fun i => (templatePart_pd hf hT).smul (hpos i), fun h => absurd hfr h,
      fun _ => ⟨h1, h2, fun i => ⟨rfl, rfl⟩⟩⟩
    have hq : (ofRat (1 / 1000) : XF) = fin (1 / 1000) := by rw [ofRat_def]; congr 1; norm_num
    have c1' : setCovars eig ty e.nComponents (distributeCovar (initCov (ofRat (1 / 1000)) (l.map Gaussian.row)) ty e.nComponents) =
        .ok c := by
      rw [hq, initCov_fin h2l]; exact c1
    unfold vgaussInitCovars
    refine (Py.bind_ok (Py.get_apply _)).trans ?_
    simp only [(needsCovars_iff e).2 hfr, if_true, Py.bind_apply, Py.modify_apply, Py.lift_apply, c1', c2, hnf, Option.getD_some]
  · obtain ⟨ν₀, ν, S₀, S, ⟨d₀, h1, h1'⟩, ⟨d, h2, h2'⟩, ⟨s₀, h3, h3'⟩, ⟨s, h4, h4'⟩, h5, h6, h7, h8⟩ := hset hfr
    refine ⟨d₀, d, s₀, s, e.sub.sub.covars, ν₀, ν, S₀, S, ?_, h1', h2', h3', h4', h5, h6, h7, h8, fun _ => ⟨h1, h2, h3, h4⟩,
      fun h => absurd h hfr⟩
    have : needsCovars e = false := by
      rw [← Bool.not_eq_true]; exact fun h => hfr ((needsCovars_iff e).1 h)
    unfold vgaussInitCovars
    refine (Py.bind_ok (Py.get_apply _)).trans ?_
    simp only [this, Bool.false_eq_true, if_false]
    rw [← h1, ← h2, ← h3, ← h4]
    rfl

/-- `_init` of a `VariationalGaussianHMM`. -/
theorem vgauss_starts {L : VLayout XF G} {sci : Sci XF} {eig : Eigvalsh XF} (he : EigvalshSpec eig) (hR : PositiveDraws R)
    (hK : RealCentres R) (hf : nf ≠ 0) {l : List (Fin nf → ℝ)} (hl : l ≠ []) {w : World XF G (VAttrs XF (VGaussAttrs XF))}
    (hnf : w.est.nFeatures = some nf ∨ w.est.nFeatures = none) (h0 : w.est.nComponents ≠ 0)
    (hg : VGivenGauss L.ty w.est l) (hen : VEnough L.ty R w.est l) (hp : ∀ c ∈ w.est.params, c ∈ ['s', 't', 'm', 'c'])
    {lens : List Int} (hll : lens.length ≠ 0) (hs : lens.sum = (l.length : ℤ)) :
    ∃ (rs : RandomState G) (g : G) (p m : GaussPost w.est.nComponents nf) (d₀ d s₀ s : NdArray XF) (cov : Option (NdArray XF)),
      (vgaussSub L sci eig).init R (.floats (l.map Gaussian.row)) lens w = (.ok (), ⟨{ w.est with
        nFeatures := some nf, randomState := rs
        sub :=
          { chain := { w.est.sub.chain with startPrior := some (vec p.s), startPost := some (vec m.s)
                                            transPrior := some (mat p.t), transPost := some (mat m.t) }
            sub := { w.est.sub.sub with
              meansPri := some (mat fun i => (p.p i).m), meansPost := some (mat fun i => (m.p i).m)
              betaPri := some (vec fun i => (p.p i).β), betaPost := some (vec fun i => (m.p i).β)
              dofPri := some d₀, dofPost := some d, scalePri := some s₀, scalePost := some s, covars := cov } } }, g⟩) ∧
      StoresDof L.ty (fun i => (p.p i).ν) d₀ ∧ StoresDof L.ty (fun i => (m.p i).ν) d ∧
      StoresScale L.ty (fun i => (p.p i).S) s₀ ∧ StoresScale L.ty (fun i => (m.p i).S) s ∧
      VStartsGauss L.ty R w.est lens.length l p m := by
  haveI : NeZero w.est.nComponents := ⟨h0⟩
  have hc : checkFeaturesBase (XArr.floats (l.map Gaussian.row) : XArr XF) w.est = (.ok (), { w.est with nFeatures := some nf }) := by
    have hd : (XArr.floats (l.map Gaussian.row) : XArr XF).d = nf := rfl
    unfold checkFeaturesBase
    rcases hnf with h | h
    · simp only [h, hd, ne_eq, not_true_eq_false, if_false]
      congr 1
      rw [← h]
    · simp only [h, hd]
  obtain ⟨rs, g, sp, s, tp, t, h1, h2⟩ := vinitBase_starts (V := vgaussSub L sci eig) hR hc h0 hg.chain ['s', 't', 'm', 'c']
    (fun _ => rfl) hp hll hs (fun h => hl (List.length_eq_zero_iff.1 h))
  generalize hw1 : (⟨{ w.est with nFeatures := some nf, randomState := rs, sub := { w.est.sub with
        chain := { w.est.sub.chain with startPrior := some (vec sp), startPost := some (vec s),
                                        transPrior := some (mat tp), transPost := some (mat t) } } }, g⟩ :
      World XF G (VAttrs XF (VGaussAttrs XF))) = w1 at h1
  obtain ⟨rs', g', hgen, -, -⟩ := withSelfGen_eq R (R.kmeans w.est.nComponents (l.map Gaussian.row)) w1
  obtain ⟨c, hcc⟩ := hK w.est.nComponents l (selfGen R w1)
  have hcc' : (R.kmeans w.est.nComponents (l.map Gaussian.row) (selfGen R w1)).1 = fun i k => fin (c i k) := hcc
  rw [hcc'] at hgen
  obtain ⟨q1, q2⟩ := hen.clusters _ c hcc
  generalize hcounts : clusterCounts (fun i k => fin (c i k)) (l.map Gaussian.row) = counts
  have hsum : counts.sum = ∑ i, clusterSize c l i := by rw [← hcounts, clusterCounts_sum, sum_clusterSize]
  let e1 : VEst XF G (VGaussAttrs XF) := { w.est with nFeatures := some nf, randomState := rs', sub := { w.est.sub with
        chain := { w.est.sub.chain with startPrior := some (vec sp), startPost := some (vec s),
                                        transPrior := some (mat tp), transPost := some (mat t) } } }
  have hg1 : FreshMeans w.est → (∀ i, clusterSize c l i ≠ 0) ∧ counts = List.ofFn fun i => clusterSize c l i :=
    fun h => ⟨q1 h, hcounts ▸ clusterCounts_eq (q1 h)⟩
  have hg2 : VGivenGauss L.ty { w.est with nFeatures := some nf, randomState := rs' } l :=
    ⟨⟨hg.chain.1, hg.chain.2, hg.chain.3, hg.chain.4, hg.chain.5, hg.chain.6⟩, hg.means, hg.means_set, hg.covars, hg.covars_set⟩
  obtain ⟨m₀, m, β₀, β, m1, m2, m3, m4, m5⟩ := vgaussInitMeans_eq (e := w.est) hl hg c hg1
  have m1' : vgaussInitMeans (l.map Gaussian.row) (mat c) counts e1 = { e1 with sub := { e1.sub with sub := { e1.sub.sub with
        meansPri := some (mat m₀), meansPost := some (mat m), betaPri := some (vec β₀), betaPost := some (vec β) } } } := by
    by_cases h : needsMeans w.est = true
    · have h' : needsMeans e1 = true := h
      unfold vgaussInitMeans at m1 ⊢
      rw [if_pos h] at m1
      rw [if_pos h']
      have := congrArg (fun e : VEst XF G (VGaussAttrs XF) => e.sub.sub) m1
      simp only at this
      simp only [e1]
      rw [this]
    · have h' : ¬ needsMeans e1 = true := h
      unfold vgaussInitMeans at m1 ⊢
      rw [if_neg h] at m1
      rw [if_neg h']
      have := congrArg (fun e : VEst XF G (VGaussAttrs XF) => e.sub.sub) m1
      simp only at this
      simp only [e1]
      rw [← this]
  have hq : FreshCovars w.est → 2 ≤ l.length ∧ (∀ i, (nf : ℝ) ≤ shareCount L.ty (fun i => (clusterSize c l i : ℝ)) i) ∧
      (L.ty ≠ .tied → counts = List.ofFn fun i => clusterSize c l i) := by
    refine fun h => ⟨hen.two h, q2 h, fun hty => hcounts ▸ clusterCounts_eq fun i => ?_⟩
    have := q2 h i
    rw [shareCount, if_neg hty] at this
    intro h0
    rw [h0] at this
    have hpos : (0 : ℝ) < nf := by exact_mod_cast Nat.pos_of_ne_zero hf
    push_cast at this
    linarith
  obtain ⟨d₀, d, s₀, s', cov, ν₀, ν, S₀, S, v1, v2, v3, v4, v5, v6, v7, v8, v9, v10, v11⟩ := vgaussInitCovars_eq (e := { e1 with sub := { e1.sub with sub := { e1.sub.sub with
        meansPri := some (mat m₀), meansPost := some (mat m), betaPri := some (vec β₀), betaPost := some (vec β) } } }) he hf rfl
        (ty := L.ty) hg.covars hg.covars_set hsum hq
  refine ⟨rs', g', ⟨sp, tp, fun i => ⟨β₀ i, m₀ i, ν₀ i, S₀ i⟩⟩, ⟨s, t, fun i => ⟨β i, m i, ν i, S i⟩⟩, d₀, d, s₀, s', cov, ?_, v2, v3, v4, v5,
    ⟨h2, fun i => ⟨m2 i, v6 i, v8 i⟩, fun i => ⟨m3 i, v7 i, v9 i⟩, m4, fun h => ?_, _, c, hcc, m5, v11⟩⟩
  · refine (Py.bind_ok h1).trans ?_
    show vgaussInit eig L.ty R _ lens w1 = _
    unfold vgaussInit
    refine (Py.bind_ok (Py.get_apply _)).trans ?_
    have hlt : ¬ l.length < w.est.nComponents := not_lt.2 hen.states
    subst hw1
    have hn' : (XArr.floats (l.map Gaussian.row) : XArr XF).n = l.length := by simp [XArr.n]
    simp only [h0, dite_false, hn', hlt, if_false]
    refine (Py.bind_ok hgen).trans ?_
    simp only [XArr.floatRows]
    have hm1 : onEst (Py.modify (vgaussInitMeans (l.map Gaussian.row) (.d2 fun i k => fin (c i k))
        (clusterCounts (fun i k => fin (c i k)) (l.map Gaussian.row)))) ⟨e1, g'⟩ =
        (.ok (), ⟨vgaussInitMeans (l.map Gaussian.row) (mat c) counts e1, g'⟩) := by rw [hcounts]; rfl
    refine (Py.bind_ok hm1).trans ?_
    show onEst (vgaussInitCovars eig L.ty (l.map Gaussian.row) (clusterCounts (fun i k => fin (c i k)) (l.map Gaussian.row))) _ = _
    rw [hcounts, m1']
    unfold onEst
    rw [v1]
  · obtain ⟨k1, k2, k3, k4⟩ := v10 h
    exact ⟨⟨d₀, k1, v2⟩, ⟨d, k2, v3⟩, ⟨s₀, k3, v4⟩, ⟨s', k4, v5⟩⟩

end Verif
