import Verif.Props.Gradients
import Verif.Props.Smoothed

/-!
# C92: gradients of the mass models
-/

noncomputable section

open Classical Set Filter Topology

namespace GW

open Fl Ex Spec

/-! ## Primary mass -/

theorem trace_doublePowerLaw (env : String → Fl) (m a1 a2 lo hi f : Ex) :
    doublePowerLawPrimaryMass .jax false (eval env m) (eval env a1) (eval env a2) (eval env lo)
      (eval env hi) (eval env f) = .ok (eval env (doublePowerLawEx m a1 a2 lo hi f)) := by
  unfold doublePowerLawPrimaryMass doublePowerLawEx
  have h := fun x a h l => trace_powerlaw env x a h l false true true true
  simp only [kw, pos]
  set br := lo + f * (hi - lo) with hbr
  have e : eval env lo + eval env f * (eval env hi - eval env lo) = eval env br := rfl
  rw [e]
  have n1 : -eval env a1 = eval env (-a1) := rfl
  have n2 : -eval env a2 = eval env (-a2) := rfl
  rw [n1, n2]
  rw [h br (-a2) hi br, ok_bind, h br (-a1) br lo, ok_bind, h m (-a1) br lo, ok_bind, h m (-a2) hi br,
    ok_bind]
  rfl

theorem trace_twoComponent (env : String → Fl) (m a lo hi lam mpp sig g : Ex) :
    twoComponentSingle .jax false (eval env m) (eval env a) (eval env lo) (eval env hi) (eval env lam)
      (eval env mpp) (eval env sig) (eval env g) =
        .ok (eval env (twoComponentEx m a lo hi lam mpp sig g)) := by
  unfold twoComponentSingle twoComponentEx
  have n1 : -eval env a = eval env (-a) := rfl
  simp only [kw, pos]
  rw [n1, trace_powerlaw env m (-a) hi lo, ok_bind, trace_truncnorm env m mpp sig g lo, ok_bind]
  rfl

theorem trace_threeComponent (env : String → Fl) (m a lo hi lam lam1 mpp1 sig1 mpp2 sig2 g : Ex) :
    threeComponentSingle .jax false (eval env m) (eval env a) (eval env lo) (eval env hi) (eval env lam)
      (eval env lam1) (eval env mpp1) (eval env sig1) (eval env mpp2) (eval env sig2) (eval env g) =
        .ok (eval env (threeComponentEx m a lo hi lam lam1 mpp1 sig1 mpp2 sig2 g)) := by
  unfold threeComponentSingle threeComponentEx
  have n1 : -eval env a = eval env (-a) := rfl
  simp only [kw, pos]
  rw [n1, trace_powerlaw env m (-a) hi lo, ok_bind, trace_truncnorm env m mpp1 sig1 g lo, ok_bind,
    trace_truncnorm env m mpp2 sig2 g lo, ok_bind]
  rfl

theorem trace_doublePowerLawPeak (env : String → Fl) (m a1 a2 lo hi f lam mpp sig g : Ex) :
    doublePowerLawPeakPrimaryMass .jax false (eval env m) (eval env a1) (eval env a2) (eval env lo)
      (eval env hi) (eval env f) (eval env lam) (eval env mpp) (eval env sig) (eval env g) =
        .ok (eval env (doublePowerLawPeakEx m a1 a2 lo hi f lam mpp sig g)) := by
  unfold doublePowerLawPeakPrimaryMass doublePowerLawPeakEx
  rw [trace_doublePowerLaw, ok_bind]
  simp only [kw, pos]
  rw [trace_truncnorm env m mpp sig g lo, ok_bind]
  rfl

/-! ## The window -/

theorem flMax_fin (a b : ℝ) : flMax (fin a) (fin b) = fin (max a b) := by
  unfold flMax
  rw [if_neg (by simp)]
  rcases le_total b a with h | h
  · rw [if_pos (fin_le.2 h), max_eq_left h]
  · rcases eq_or_lt_of_le h with h' | h'
    · subst h'; simp
    · rw [if_neg (by rw [fin_le]; exact not_le.2 h'), max_eq_right h]

theorem flMin_fin (a b : ℝ) : flMin (fin a) (fin b) = fin (min a b) := by
  unfold flMin
  rw [if_neg (by simp)]
  rcases le_total a b with h | h
  · rw [if_pos (fin_le.2 h), min_eq_left h]
  · rcases eq_or_lt_of_le h with h' | h'
    · subst h'; simp
    · rw [if_neg (by rw [fin_le]; exact not_le.2 h'), min_eq_right h]

theorem trace_smoothing (env : String → Fl) (m lo hi d : Ex) :
    smoothing .jax (eval env m) (eval env lo) (eval env hi) (eval env d) =
      eval env (smoothingEx m lo hi d) := by
  unfold smoothing smoothingEx
  rw [if_pos (Or.inl rfl)]
  have hclip : ∀ r : Fl, Arr.clip (nanToNum r) (fin 1e-6) (fin (1 - 1e-6)) =
      flMin (flMax (nanToNum r) (fin 1e-6)) (fin (1 - 1e-6)) := by
    intro r
    obtain ⟨c, hc⟩ : ∃ c, nanToNum r = fin c := by
      cases r with
      | fin a => exact ⟨a, rfl⟩
      | pinf => exact ⟨_, rfl⟩
      | ninf => exact ⟨_, rfl⟩
      | nan => exact ⟨_, rfl⟩
    rw [hc, flMax_fin, flMin_fin]
    simp only [Arr.clip, fin_lt]
    split_ifs with h1 h2
    · rw [max_eq_right h1.le, min_eq_left (by norm_num)]
    · rw [max_eq_left (not_lt.1 h1), min_eq_right h2.le]
    · rw [max_eq_left (not_lt.1 h1), min_eq_left (not_lt.1 h2)]
  show expit (-(1 / Arr.clip (nanToNum _) _ _ - 1 / (1 - Arr.clip (nanToNum _) _ _))) * _ = _
  rw [hclip]
  rfl

theorem smooth_smoothing {θ : String → ℝ} {v : String} {m lo hi d : Ex} (sm : Smooth θ v m)
    (sl : Smooth θ v lo) (sd : Smooth θ v d) {mr lr dr : ℝ} (em : eval (envOf θ) m = fin mr)
    (el : eval (envOf θ) lo = fin lr) (ed : eval (envOf θ) d = fin dr) (hd : dr ≠ 0)
    (h1 : (mr - lr) / dr ≠ 1e-6) (h2 : (mr - lr) / dr ≠ 1 - 1e-6) (m1 : Smooth θ v (mask .le lo m))
    (m2 : Smooth θ v (mask .le m hi)) : Smooth θ v (smoothingEx m lo hi d) := by
  have es : eval (envOf θ) (un .nanToNum ((m - lo) / d)) = fin ((mr - lr) / dr) := by
    rw [eval_un, eval_div, eval_sub, em, el, ed, fin_sub, fin_div hd]
    rfl
  have ss : Smooth θ v (un .nanToNum ((m - lo) / d)) :=
    smooth_un' (o := .nanToNum) (fun _ => trivial) (smooth_div (smooth_sub sm sl) sd ed hd)
  have e1 : eval (envOf θ) (bin .maximum (un .nanToNum ((m - lo) / d)) (const (fin 1e-6))) =
      fin (max ((mr - lr) / dr) 1e-6) := by
    rw [eval_bin, es]; exact flMax_fin _ _
  have s1 : Smooth θ v (bin .maximum (un .nanToNum ((m - lo) / d)) (const (fin 1e-6))) :=
    smooth_bin ss (smooth_const θ v _) es rfl h1
  have e2 : eval (envOf θ) (bin .minimum (bin .maximum (un .nanToNum ((m - lo) / d)) (const (fin 1e-6)))
      (const (fin (1 - 1e-6)))) = fin (min (max ((mr - lr) / dr) 1e-6) (1 - 1e-6)) := by
    rw [eval_bin, e1]; exact flMin_fin _ _
  have s2 : Smooth θ v (bin .minimum (bin .maximum (un .nanToNum ((m - lo) / d)) (const (fin 1e-6)))
      (const (fin (1 - 1e-6)))) := by
    refine smooth_bin s1 (smooth_const θ v _) e1 rfl ?_
    show max ((mr - lr) / dr) 1e-6 ≠ 1 - 1e-6
    rcases max_choice ((mr - lr) / dr) 1e-6 with h | h <;> rw [h]
    · exact h2
    · norm_num
  have hlo : (1e-6 : ℝ) ≤ min (max ((mr - lr) / dr) 1e-6) (1 - 1e-6) :=
    le_min (le_max_right _ _) (by norm_num)
  have hhi : min (max ((mr - lr) / dr) 1e-6) (1 - 1e-6) ≤ 1 - (1e-6 : ℝ) := min_le_right _ _
  have s1c : Smooth θ v (const 1) := smooth_const θ v 1
  refine smooth_mul (smooth_un' (o := .expit) (fun _ => trivial) (smooth_neg (smooth_sub
    (smooth_div s1c s2 e2 ?_) (smooth_div s1c (smooth_sub s1c s2)
      (b := 1 - min (max ((mr - lr) / dr) 1e-6) (1 - 1e-6)) ?_ ?_)))) (smooth_mul m1 m2)
  · have : (0 : ℝ) < 1e-6 := by norm_num
    linarith
  · rw [eval_sub, e2]; rfl
  · have : (0 : ℝ) < 1e-6 := by norm_num
    intro h'
    linarith

/-! ## Gradients of the primary mass models -/

/-- Inside the limits, which are the same expressions or different numbers, the power law is positive. -/
theorem powerlawEx_pos {θ : String → ℝ} {x a h l : Ex} {xr ar hr lr : ℝ}
    (ex : eval (envOf θ) x = fin xr) (ea : eval (envOf θ) a = fin ar) (eh : eval (envOf θ) h = fin hr)
    (el : eval (envOf θ) l = fin lr) (hl : 0 < lr) (hlh : lr < hr) (h1 : lr ≤ xr) (h2 : xr ≤ hr) :
    ∃ c, 0 < c ∧ eval (envOf θ) (powerlawEx x a h l) = fin c := by
  have hx : 0 < xr := by linarith
  have := trace_powerlaw (envOf θ) x a h l false false false false
  rw [ex, ea, eh, el, C01_powerlaw_value .jax false false false false false hl hlh hx (.inl rfl)] at this
  refine ⟨_, ?_, (Except.ok.inj this).symm⟩
  unfold normalised
  rw [if_pos ⟨h1, h2⟩]
  exact div_pos (Real.rpow_pos_of_pos hx _) (integral_rpow_pos hl hlh)

theorem smooth_twoComponent {θ : String → ℝ} {v : String} {m a lo hi lam mpp sig g : Ex}
    (sm : Smooth θ v m) (sa : Smooth θ v a) (slo : Smooth θ v lo) (shi : Smooth θ v hi)
    (slam : Smooth θ v lam) (smpp : Smooth θ v mpp) (ssig : Smooth θ v sig) (sg : Smooth θ v g)
    {mr ar lr hr pr sr gr : ℝ} (em : eval (envOf θ) m = fin mr) (ea : eval (envOf θ) a = fin ar)
    (elo : eval (envOf θ) lo = fin lr) (ehi : eval (envOf θ) hi = fin hr)
    (ep : eval (envOf θ) mpp = fin pr) (es : eval (envOf θ) sig = fin sr)
    (eg : eval (envOf θ) g = fin gr) (hm : 0 < mr) (ha : ar ≠ 1) (hl : 0 < lr) (hlh : lr < hr)
    (hs : 0 < sr) (hlg : lr < gr) (h1 : mr ≠ lr) (h2 : mr ≠ hr) (mk : Smooth θ v (mask .le m g)) :
    Smooth θ v (twoComponentEx m a lo hi lam mpp sig g) := by
  have k1 : Smooth θ v (mask .le lo m) := smooth_mask slo sm elo em h1.symm
  have k2 : Smooth θ v (mask .le m hi) := smooth_mask sm shi em ehi h2
  refine smooth_add (smooth_mul (smooth_sub (smooth_const θ v 1) slam) (smooth_powerlaw sm (smooth_neg sa)
    shi slo em (ar := -ar) (by rw [eval_neg, ea]; rfl) ehi elo hm (fun h => ha (by linarith)) hl
    (hl.trans hlh) hlh.ne' k2 k1)) (smooth_mul slam (smooth_truncnorm sm smpp ssig sg slo ep es eg elo hs
      hlg k1 mk))

theorem smooth_threeComponent {θ : String → ℝ} {v : String}
    {m a lo hi lam lam1 mpp1 sig1 mpp2 sig2 g : Ex}
    (sm : Smooth θ v m) (sa : Smooth θ v a) (slo : Smooth θ v lo) (shi : Smooth θ v hi)
    (slam : Smooth θ v lam) (slam1 : Smooth θ v lam1) (smpp1 : Smooth θ v mpp1)
    (ssig1 : Smooth θ v sig1) (smpp2 : Smooth θ v mpp2) (ssig2 : Smooth θ v sig2) (sg : Smooth θ v g)
    {mr ar lr hr pr1 sr1 pr2 sr2 gr : ℝ} (em : eval (envOf θ) m = fin mr)
    (ea : eval (envOf θ) a = fin ar) (elo : eval (envOf θ) lo = fin lr)
    (ehi : eval (envOf θ) hi = fin hr) (ep1 : eval (envOf θ) mpp1 = fin pr1)
    (es1 : eval (envOf θ) sig1 = fin sr1) (ep2 : eval (envOf θ) mpp2 = fin pr2)
    (es2 : eval (envOf θ) sig2 = fin sr2) (eg : eval (envOf θ) g = fin gr) (hm : 0 < mr) (ha : ar ≠ 1)
    (hl : 0 < lr) (hlh : lr < hr) (hs1 : 0 < sr1) (hs2 : 0 < sr2) (hlg : lr < gr) (h1 : mr ≠ lr)
    (h2 : mr ≠ hr) (mk : Smooth θ v (mask .le m g)) :
    Smooth θ v (threeComponentEx m a lo hi lam lam1 mpp1 sig1 mpp2 sig2 g) := by
  have k1 : Smooth θ v (mask .le lo m) := smooth_mask slo sm elo em h1.symm
  have k2 : Smooth θ v (mask .le m hi) := smooth_mask sm shi em ehi h2
  have s1 : Smooth θ v (const 1) := smooth_const θ v 1
  refine smooth_add (smooth_add (smooth_mul (smooth_sub s1 slam) (smooth_powerlaw sm (smooth_neg sa)
    shi slo em (ar := -ar) (by rw [eval_neg, ea]; rfl) ehi elo hm (fun h => ha (by linarith)) hl
    (hl.trans hlh) hlh.ne' k2 k1)) (smooth_mul (smooth_mul slam slam1) (smooth_truncnorm sm smpp1 ssig1 sg
      slo ep1 es1 eg elo hs1 hlg k1 mk))) (smooth_mul (smooth_mul slam (smooth_sub s1 slam1))
      (smooth_truncnorm sm smpp2 ssig2 sg slo ep2 es2 eg elo hs2 hlg k1 mk))

theorem smooth_doublePowerLaw {θ : String → ℝ} {v : String} {m a1 a2 lo hi f : Ex}
    (sm : Smooth θ v m) (sa1 : Smooth θ v a1) (sa2 : Smooth θ v a2) (slo : Smooth θ v lo)
    (shi : Smooth θ v hi) (sf : Smooth θ v f) {mr ar1 ar2 lr hr fr : ℝ}
    (em : eval (envOf θ) m = fin mr) (ea1 : eval (envOf θ) a1 = fin ar1)
    (ea2 : eval (envOf θ) a2 = fin ar2) (elo : eval (envOf θ) lo = fin lr)
    (ehi : eval (envOf θ) hi = fin hr) (ef : eval (envOf θ) f = fin fr) (hm : 0 < mr) (h1 : ar1 ≠ 1)
    (h2 : ar2 ≠ 1) (hl : 0 < lr) (hlh : lr < hr) (hf0 : 0 < fr) (hf1 : fr < 1) (n1 : mr ≠ lr)
    (n2 : mr ≠ hr) (n3 : mr ≠ lr + fr * (hr - lr)) :
    Smooth θ v (doublePowerLawEx m a1 a2 lo hi f) := by
  set br := lo + f * (hi - lo) with hbr
  set b := lr + fr * (hr - lr) with hb
  have hb1 : lr < b := by rw [hb]; nlinarith
  have hb2 : b < hr := by rw [hb]; nlinarith
  have sbr : Smooth θ v br := smooth_add slo (smooth_mul sf (smooth_sub shi slo))
  have ebr : eval (envOf θ) br = fin b := by
    rw [hbr, eval_add, eval_mul, eval_sub, elo, ehi, ef, fin_sub, fin_mul, fin_add]
  have en1 : eval (envOf θ) (-a1) = fin (-ar1) := by rw [eval_neg, ea1]; rfl
  have en2 : eval (envOf θ) (-a2) = fin (-ar2) := by rw [eval_neg, ea2]; rfl
  have g1 : -ar1 ≠ -1 := fun h => h1 (by linarith)
  have g2 : -ar2 ≠ -1 := fun h => h2 (by linarith)
  have same : Smooth θ v (mask .le br br) := by
    obtain ⟨F, d, e1, -, -⟩ := exact_of_smooth sbr
    show ∀ᶠ t in 𝓝 (θ v), (_ ↔ _)
    filter_upwards [e1] with t e1
    rw [e1, ebr]
    simp [CmpOp.holds]
  have hb0 : 0 < b := hl.trans hb1
  have kbh : Smooth θ v (mask .le br hi) := smooth_mask sbr shi ebr ehi hb2.ne
  have klb : Smooth θ v (mask .le lo br) := smooth_mask slo sbr elo ebr hb1.ne
  have kmb : ∀ c, Smooth θ v (mask c m br) := fun c => smooth_mask sm sbr em ebr n3
  have kbm : ∀ c, Smooth θ v (mask c br m) := fun c => smooth_mask sbr sm ebr em n3.symm
  have kmh : Smooth θ v (mask .le m hi) := smooth_mask sm shi em ehi n2
  have klm : Smooth θ v (mask .le lo m) := smooth_mask slo sm elo em n1.symm
  have hh0 : 0 < hr := hl.trans hlh
  obtain ⟨c2, hc2, e2⟩ := powerlawEx_pos ebr en2 ehi ebr hb0 hb2 le_rfl hb2.le
  obtain ⟨c1, hc1, e1⟩ := powerlawEx_pos ebr en1 ebr elo hl hb1 hb1.le le_rfl
  have p2 := smooth_powerlaw sbr (smooth_neg sa2) shi sbr ebr en2 ehi ebr hb0 g2 hb0 hh0 hb2.ne' kbh same
  have p1 := smooth_powerlaw sbr (smooth_neg sa1) sbr slo ebr en1 ebr elo hb0 g1 hl hb0 hb1.ne' same klb
  have sc := smooth_div p2 p1 e1 hc1.ne'
  have q1 := smooth_powerlaw sm (smooth_neg sa1) sbr slo em en1 ebr elo hm g1 hl hb0 hb1.ne' (kmb .le) klm
  have q2 := smooth_powerlaw sm (smooth_neg sa2) shi sbr em en2 ehi ebr hm g2 hb0 hh0 hb2.ne' kmh (kbm .le)
  refine smooth_div (smooth_add (smooth_mul (smooth_mul q1 (kmb .lt)) sc) (smooth_mul q2 (kbm .le)))
    (smooth_add (smooth_const θ v 1) sc) (b := 1 + c2 / c1) ?_ (by positivity)
  rw [eval_add, eval_div, e1, e2, fin_div hc1.ne']
  rfl

/-- `two_component_single` on jax as a function of its hyper-parameters. -/
def twoComponentOf (m : ℝ) (θ : String → ℝ) : Except PyErr Fl :=
  twoComponentSingle .jax false (fin m) (fin (θ "alpha")) (fin (θ "mmin")) (fin (θ "mmax"))
    (fin (θ "lam")) (fin (θ "mpp")) (fin (θ "sigpp")) (fin (θ "gaussian_mass_maximum"))

/-- The recorded computation. -/
def twoComponentRec (m : ℝ) : Ex :=
  twoComponentEx (const (fin m)) (arg "alpha") (arg "mmin") (arg "mmax") (arg "lam") (arg "mpp")
    (arg "sigpp") (arg "gaussian_mass_maximum")

theorem twoComponent_traces (m : ℝ) : Traces (twoComponentRec m) (twoComponentOf m) := fun θ =>
  trace_twoComponent (envOf θ) (const (fin m)) (arg "alpha") (arg "mmin") (arg "mmax") (arg "lam")
    (arg "mpp") (arg "sigpp") (arg "gaussian_mass_maximum")

/-- **C92.** For a spectral index other than 1 jax returns the derivatives of the power law with a
peak, for masses that are not exactly at one of the limits. -/
theorem C92_twoComponent_partial {m : ℝ} (hm : 0 < m) {θ : String → ℝ} (ha : θ "alpha" ≠ 1)
    (hl : 0 < θ "mmin") (hlh : θ "mmin" < θ "mmax") (hs : 0 < θ "sigpp")
    (hlg : θ "mmin" < θ "gaussian_mass_maximum") (h1 : m ≠ θ "mmin") (h2 : m ≠ θ "mmax")
    (h3 : m ≠ θ "gaussian_mass_maximum") (v : String) :
    GradientRight (twoComponentOf m) (twoComponentRec m) θ v :=
  gradientRight (twoComponent_traces m) <| smooth_twoComponent (smooth_const θ v m) trivial trivial
    trivial trivial trivial trivial trivial rfl rfl rfl rfl rfl rfl rfl hm ha hl hlh hs hlg h1 h2
    (smooth_mask (smooth_const θ v m) trivial rfl rfl h3)

example : GradientRight (twoComponentOf 30) (twoComponentRec 30) (fun k => if k = "mmin" then 5 else
    if k = "mmax" then 80 else if k = "gaussian_mass_maximum" then 100 else 3) "mpp" :=
  C92_twoComponent_partial (by norm_num) (by simp) (by simp) (by simp; norm_num) (by simp)
    (by simp; norm_num) (by simp) (by simp) (by simp) _

/-- `three_component_single` on jax as a function of its hyper-parameters. -/
def threeComponentOf (m : ℝ) (θ : String → ℝ) : Except PyErr Fl :=
  threeComponentSingle .jax false (fin m) (fin (θ "alpha")) (fin (θ "mmin")) (fin (θ "mmax"))
    (fin (θ "lam")) (fin (θ "lam_1")) (fin (θ "mpp_1")) (fin (θ "sigpp_1")) (fin (θ "mpp_2"))
    (fin (θ "sigpp_2")) (fin (θ "gaussian_mass_maximum"))

/-- The recorded computation. -/
def threeComponentRec (m : ℝ) : Ex :=
  threeComponentEx (const (fin m)) (arg "alpha") (arg "mmin") (arg "mmax") (arg "lam") (arg "lam_1")
    (arg "mpp_1") (arg "sigpp_1") (arg "mpp_2") (arg "sigpp_2") (arg "gaussian_mass_maximum")

/-- **C92.** The same for the power law with two peaks. -/
theorem C92_threeComponent_partial {m : ℝ} (hm : 0 < m) {θ : String → ℝ} (ha : θ "alpha" ≠ 1)
    (hl : 0 < θ "mmin") (hlh : θ "mmin" < θ "mmax") (hs1 : 0 < θ "sigpp_1") (hs2 : 0 < θ "sigpp_2")
    (hlg : θ "mmin" < θ "gaussian_mass_maximum") (h1 : m ≠ θ "mmin") (h2 : m ≠ θ "mmax")
    (h3 : m ≠ θ "gaussian_mass_maximum") (v : String) :
    GradientRight (threeComponentOf m) (threeComponentRec m) θ v :=
  gradientRight (e := threeComponentRec m) (fun θ => trace_threeComponent (envOf θ) (const (fin m))
    (arg "alpha") (arg "mmin") (arg "mmax") (arg "lam") (arg "lam_1") (arg "mpp_1") (arg "sigpp_1")
    (arg "mpp_2") (arg "sigpp_2") (arg "gaussian_mass_maximum")) <|
    smooth_threeComponent (smooth_const θ v m) trivial trivial trivial trivial trivial trivial trivial
      trivial trivial trivial rfl rfl rfl rfl rfl rfl rfl rfl rfl hm ha hl hlh hs1 hs2 hlg h1 h2
      (smooth_mask (smooth_const θ v m) trivial rfl rfl h3)

example : GradientRight (threeComponentOf 30) (threeComponentRec 30) (fun k => if k = "mmin" then 5 else
    if k = "mmax" then 80 else if k = "gaussian_mass_maximum" then 100 else 3) "lam_1" :=
  C92_threeComponent_partial (by norm_num) (by simp) (by simp) (by simp; norm_num) (by simp)
    (by simp) (by simp; norm_num) (by simp) (by simp) (by simp) _

/-- `double_power_law_primary_mass` on jax as a function of its hyper-parameters. -/
def doublePowerLawOf (m : ℝ) (θ : String → ℝ) : Except PyErr Fl :=
  doublePowerLawPrimaryMass .jax false (fin m) (fin (θ "alpha_1")) (fin (θ "alpha_2")) (fin (θ "mmin"))
    (fin (θ "mmax")) (fin (θ "break_fraction"))

/-- The recorded computation. -/
def doublePowerLawRec (m : ℝ) : Ex :=
  doublePowerLawEx (const (fin m)) (arg "alpha_1") (arg "alpha_2") (arg "mmin") (arg "mmax")
    (arg "break_fraction")

/-- **C92.** For spectral indices other than 1 jax returns the derivatives of the broken power law,
for masses that are not exactly at a limit or at the break. -/
theorem C92_doublePowerLaw_partial {m : ℝ} (hm : 0 < m) {θ : String → ℝ} (ha1 : θ "alpha_1" ≠ 1)
    (ha2 : θ "alpha_2" ≠ 1) (hl : 0 < θ "mmin") (hlh : θ "mmin" < θ "mmax")
    (hf0 : 0 < θ "break_fraction") (hf1 : θ "break_fraction" < 1) (h1 : m ≠ θ "mmin")
    (h2 : m ≠ θ "mmax") (h3 : m ≠ θ "mmin" + θ "break_fraction" * (θ "mmax" - θ "mmin")) (v : String) :
    GradientRight (doublePowerLawOf m) (doublePowerLawRec m) θ v :=
  gradientRight (e := doublePowerLawRec m) (fun θ => trace_doublePowerLaw (envOf θ) (const (fin m))
    (arg "alpha_1") (arg "alpha_2") (arg "mmin") (arg "mmax") (arg "break_fraction")) <|
    smooth_doublePowerLaw (smooth_const θ v m) trivial trivial trivial trivial trivial rfl rfl rfl rfl
      rfl rfl hm ha1 ha2 hl hlh hf0 hf1 h1 h2 h3

example : GradientRight (doublePowerLawOf 30) (doublePowerLawRec 30) (fun k => if k = "mmin" then 5 else
    if k = "mmax" then 80 else if k = "break_fraction" then 0.4 else 3) "break_fraction" :=
  C92_doublePowerLaw_partial (by norm_num) (by simp) (by simp) (by simp) (by simp; norm_num)
    (by simp; norm_num) (by simp; norm_num) (by simp) (by simp) (by simp; norm_num) _

/-- `double_power_law_peak_primary_mass` on jax as a function of its hyper-parameters. -/
def doublePowerLawPeakOf (m : ℝ) (θ : String → ℝ) : Except PyErr Fl :=
  doublePowerLawPeakPrimaryMass .jax false (fin m) (fin (θ "alpha_1")) (fin (θ "alpha_2"))
    (fin (θ "mmin")) (fin (θ "mmax")) (fin (θ "break_fraction")) (fin (θ "lam")) (fin (θ "mpp"))
    (fin (θ "sigpp")) (fin (θ "gaussian_mass_maximum"))

/-- The recorded computation. -/
def doublePowerLawPeakRec (m : ℝ) : Ex :=
  doublePowerLawPeakEx (const (fin m)) (arg "alpha_1") (arg "alpha_2") (arg "mmin") (arg "mmax")
    (arg "break_fraction") (arg "lam") (arg "mpp") (arg "sigpp") (arg "gaussian_mass_maximum")

/-- **C92.** The same for the broken power law with a peak. -/
theorem C92_doublePowerLawPeak_partial {m : ℝ} (hm : 0 < m) {θ : String → ℝ} (ha1 : θ "alpha_1" ≠ 1)
    (ha2 : θ "alpha_2" ≠ 1) (hl : 0 < θ "mmin") (hlh : θ "mmin" < θ "mmax")
    (hf0 : 0 < θ "break_fraction") (hf1 : θ "break_fraction" < 1) (hs : 0 < θ "sigpp")
    (hlg : θ "mmin" < θ "gaussian_mass_maximum") (h1 : m ≠ θ "mmin")
    (h2 : m ≠ θ "mmax") (h3 : m ≠ θ "mmin" + θ "break_fraction" * (θ "mmax" - θ "mmin"))
    (h4 : m ≠ θ "gaussian_mass_maximum") (v : String) :
    GradientRight (doublePowerLawPeakOf m) (doublePowerLawPeakRec m) θ v :=
  gradientRight (e := doublePowerLawPeakRec m) (fun θ => trace_doublePowerLawPeak (envOf θ)
    (const (fin m)) (arg "alpha_1") (arg "alpha_2") (arg "mmin") (arg "mmax") (arg "break_fraction")
    (arg "lam") (arg "mpp") (arg "sigpp") (arg "gaussian_mass_maximum")) <|
    smooth_add (smooth_mul (smooth_sub (smooth_const θ v 1) trivial) (smooth_doublePowerLaw
      (smooth_const θ v m) trivial trivial trivial trivial trivial rfl rfl rfl rfl
      rfl rfl hm ha1 ha2 hl hlh hf0 hf1 h1 h2 h3)) (smooth_mul trivial (smooth_truncnorm
        (smooth_const θ v m) trivial trivial trivial trivial rfl rfl rfl rfl hs hlg
        (smooth_mask trivial (smooth_const θ v m) rfl rfl h1.symm)
        (smooth_mask (smooth_const θ v m) trivial rfl rfl h4)))

example : GradientRight (doublePowerLawPeakOf 30) (doublePowerLawPeakRec 30)
    (fun k => if k = "mmin" then 5 else if k = "mmax" then 80 else if k = "break_fraction" then 0.4
      else if k = "gaussian_mass_maximum" then 100 else 3) "sigpp" :=
  C92_doublePowerLawPeak_partial (by norm_num) (by simp) (by simp) (by simp) (by simp; norm_num)
    (by simp; norm_num) (by simp; norm_num) (by simp) (by simp; norm_num) (by simp) (by simp)
    (by simp; norm_num) (by simp) _

end GW
