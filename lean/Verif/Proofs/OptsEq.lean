import Verif.Props.Layout
/-
The preprocessed options agree with the given ones, field by field (helper lemmas).
-/
namespace Nosnoc
section
variable {colloc : IrkScheme → Nat → List ℝ} {o : Opts} {um : UserModel} {uo : Option UserOcp}
  {po : PreOpts} {m : PreModel} {oc : PreOcp} {P : Problem}

theorem Setup.e_terminalTime (h : Setup colloc o um uo po m oc P) : po.terminalTime = o.terminalTime := by rw [h.opts]
theorem Setup.e_useFesd (h : Setup colloc o um uo po m oc P) : po.useFesd = o.useFesd := by rw [h.opts]
theorem Setup.e_initStrategy (h : Setup colloc o um uo po m oc P) : po.initStrategy = o.initStrategy := by rw [h.opts]
theorem Setup.e_irkRep (h : Setup colloc o um uo po m oc P) : po.irkRep = o.irkRep := by rw [h.opts]
theorem Setup.e_nS (h : Setup colloc o um uo po m oc P) : po.nS = o.nS := by rw [h.opts]
theorem Setup.e_scheme (h : Setup colloc o um uo po m oc P) : po.scheme = o.scheme := by rw [h.opts]
theorem Setup.e_crossComp (h : Setup colloc o um uo po m oc P) : po.crossComp = o.crossComp := by rw [h.opts]
theorem Setup.e_mpcc (h : Setup colloc o um uo po m oc P) : po.mpcc = o.mpcc := by rw [h.opts]
theorem Setup.e_constraintHandling (h : Setup colloc o um uo po m oc P) : po.constraintHandling = o.constraintHandling := by rw [h.opts]
theorem Setup.e_pss (h : Setup colloc o um uo po m oc P) : po.pss = o.pss := by rw [h.opts]
theorem Setup.e_gammaH (h : Setup colloc o um uo po m oc P) : po.gammaH = o.gammaH := by rw [h.opts]
theorem Setup.e_smoothing (h : Setup colloc o um uo po m oc P) : po.smoothing = o.smoothing := by rw [h.opts]
theorem Setup.e_fixActiveSetFe0 (h : Setup colloc o um uo po m oc P) : po.fixActiveSetFe0 = o.fixActiveSetFe0 := by rw [h.opts]
theorem Setup.e_nFe (h : Setup colloc o um uo po m oc P) : po.nFe = o.nFe := by rw [h.opts]
theorem Setup.e_compTol (h : Setup colloc o um uo po m oc P) : po.compTol = o.compTol := by rw [h.opts]
theorem Setup.e_sigma0 (h : Setup colloc o um uo po m oc P) : po.sigma0 = o.sigma0 := by rw [h.opts]
theorem Setup.e_sigmaN (h : Setup colloc o um uo po m oc P) : po.sigmaN = o.sigmaN := by rw [h.opts]
theorem Setup.e_slope (h : Setup colloc o um uo po m oc P) : po.slope = o.slope := by rw [h.opts]
theorem Setup.e_exponent (h : Setup colloc o um uo po m oc P) : po.exponent = o.exponent := by rw [h.opts]
theorem Setup.e_rule (h : Setup colloc o um uo po m oc P) : po.rule = o.rule := by rw [h.opts]
theorem Setup.e_stepEq (h : Setup colloc o um uo po m oc P) : po.stepEq = o.stepEq := by rw [h.opts]
theorem Setup.e_stepEqSigma (h : Setup colloc o um uo po m oc P) : po.stepEqSigma = o.stepEqSigma := by rw [h.opts]
theorem Setup.e_rhoH (h : Setup colloc o um uo po m oc P) : po.rhoH = o.rhoH := by rw [h.opts]
theorem Setup.e_fbAug1 (h : Setup colloc o um uo po m oc P) : po.fbAug1 = o.fbAug1 := by rw [h.opts]
theorem Setup.e_fbAug2 (h : Setup colloc o um uo po m oc P) : po.fbAug2 = o.fbAug2 := by rw [h.opts]
theorem Setup.e_polish (h : Setup colloc o um uo po m oc P) : po.polish = o.polish := by rw [h.opts]
theorem Setup.e_nStages (h : Setup colloc o um uo po m oc P) : po.nStages = o.nStages := by rw [h.opts]
theorem Setup.e_equidistant (h : Setup colloc o um uo po m oc P) : po.equidistant = o.equidistant := by rw [h.opts]
theorem Setup.e_gPathAtFe (h : Setup colloc o um uo po m oc P) : po.gPathAtFe = o.gPathAtFe := by rw [h.opts]
theorem Setup.e_gPathAtStg (h : Setup colloc o um uo po m oc P) : po.gPathAtStg = o.gPathAtStg := by rw [h.opts]
theorem Setup.e_sElastic0 (h : Setup colloc o um uo po m oc P) : po.sElastic0 = o.sElastic0 := by rw [h.opts]
theorem Setup.e_sElasticMax (h : Setup colloc o um uo po m oc P) : po.sElasticMax = o.sElasticMax := by rw [h.opts]
theorem Setup.e_sElasticMin (h : Setup colloc o um uo po m oc P) : po.sElasticMin = o.sElasticMin := by rw [h.opts]
theorem Setup.e_objScalingDirect (h : Setup colloc o um uo po m oc P) : po.objScalingDirect = o.objScalingDirect := by rw [h.opts]
theorem Setup.e_timeFreezing (h : Setup colloc o um uo po m oc P) : po.timeFreezing = o.timeFreezing := by rw [h.opts]
theorem Setup.e_timeFreezingTol (h : Setup colloc o um uo po m oc P) : po.timeFreezingTol = o.timeFreezingTol := by rw [h.opts]
theorem Setup.e_sot (h : Setup colloc o um uo po m oc P) : po.sot = o.sot := by rw [h.opts]
theorem Setup.e_sotMin (h : Setup colloc o um uo po m oc P) : po.sotMin = o.sotMin := by rw [h.opts]
theorem Setup.e_sotMax (h : Setup colloc o um uo po m oc P) : po.sotMax = o.sotMax := by rw [h.opts]
theorem Setup.e_nfeList (h : Setup colloc o um uo po m oc P) : po.nfeList = o.nfeAfter := by rw [h.opts]

end
end Nosnoc
