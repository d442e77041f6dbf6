import Verif.Py.Exec
import Verif.Py.Source.EllConfig
import Verif.Py.Source.EllCalcCore
import Verif.Py.Source.EllCalc
import Verif.Py.Source.Ell
import Verif.Py.Source.EllStable
import Verif.Py.Source.CuttingPlane
import Verif.Py.Source.ConjugateGradient
import Verif.Py.Source.LdltMgr
import Verif.Py.Source.LmiOracle
import Verif.Py.Source.Lmi0Oracle
import Verif.Py.Source.LmiOldOracle
import Verif.Py.Source.ProfitOracle
import Verif.Py.Source.LowpassOracle
import Verif.Py.Source.SpectralFact
import Verif.Py.Source.Skeleton

/-! # The program: the modules of ellalgo, and where its names lead -/

namespace Ellalgo.Py

/-- The modules of ellalgo whose text is in `Py/Source`. -/
def ellalgo : Prog :=
  [Source.EllConfig, Source.EllCalcCore, Source.EllCalc, Source.Ell, Source.EllStable, Source.CuttingPlane, Source.ConjugateGradient,
    Source.LdltMgr, Source.LmiOracle, Source.Lmi0Oracle, Source.LmiOldOracle, Source.ProfitOracle, Source.LowpassOracle, Source.SpectralFact, Source.Skeleton]

/-- A machine that runs ellalgo. -/
def mach {W : Type} (A : Arith) (ext : ℕ → String → List Val → M W Val) : Machine W := ⟨A, ellalgo, ext⟩

section
variable {W : Type} (A : Arith) (ext : ℕ → String → List Val → M W Val)
@[py] theorem mach_A : (mach A ext).A = A := rfl
@[py] theorem mach_prog : (mach A ext).prog = ellalgo := rfl
@[py] theorem mach_ext : (mach A ext).ext = ext := rfl
end

@[py] theorem fun_cutting_plane_feas : ellalgo.fun? "cutting_plane_feas" = some Source.CuttingPlane.cutting_plane_feas := rfl
@[py] theorem fun_cutting_plane_optim : ellalgo.fun? "cutting_plane_optim" = some Source.CuttingPlane.cutting_plane_optim := rfl
@[py] theorem fun_cutting_plane_optim_q : ellalgo.fun? "cutting_plane_optim_q" = some Source.CuttingPlane.cutting_plane_optim_q := rfl
@[py] theorem fun_bsearch : ellalgo.fun? "bsearch" = some Source.CuttingPlane.bsearch := rfl
@[py] theorem fun_conjugate_gradient : ellalgo.fun? "conjugate_gradient" = some Source.ConjugateGradient.conjugate_gradient := rfl
@[py] theorem class_CutStatus : ellalgo.class? "CutStatus" = some Source.EllConfig.CutStatus := rfl
@[py] theorem fun_CutStatus : ellalgo.fun? "CutStatus" = none := rfl
@[py] theorem class_Options : ellalgo.class? "Options" = some Source.EllConfig.Options := rfl
@[py] theorem fun_Options : ellalgo.fun? "Options" = none := rfl
@[py] theorem class_EllCalcCore : ellalgo.class? "EllCalcCore" = some Source.EllCalcCore.EllCalcCore := rfl
@[py] theorem fun_EllCalcCore : ellalgo.fun? "EllCalcCore" = none := rfl
@[py] theorem class_EllCalc : ellalgo.class? "EllCalc" = some Source.EllCalc.EllCalc := rfl
@[py] theorem fun_EllCalc : ellalgo.fun? "EllCalc" = none := rfl
@[py] theorem class_Ell : ellalgo.class? "Ell" = some Source.Ell.Ell := rfl
@[py] theorem fun_Ell : ellalgo.fun? "Ell" = none := rfl
@[py] theorem class_EllStable : ellalgo.class? "EllStable" = some Source.EllStable.EllStable := rfl
@[py] theorem fun_EllStable : ellalgo.fun? "EllStable" = none := rfl
@[py] theorem class_BSearchAdaptor : ellalgo.class? "BSearchAdaptor" = some Source.CuttingPlane.BSearchAdaptor := rfl
@[py] theorem fun_BSearchAdaptor : ellalgo.fun? "BSearchAdaptor" = none := rfl
@[py] theorem class_LDLTMgr : ellalgo.class? "LDLTMgr" = some Source.LdltMgr.LDLTMgr := rfl
@[py] theorem fun_LDLTMgr : ellalgo.fun? "LDLTMgr" = none := rfl
@[py] theorem class_LMIOracle : ellalgo.class? "LMIOracle" = some Source.LmiOracle.LMIOracle := rfl
@[py] theorem fun_LMIOracle : ellalgo.fun? "LMIOracle" = none := rfl
@[py] theorem class_LMI0Oracle : ellalgo.class? "LMI0Oracle" = some Source.Lmi0Oracle.LMI0Oracle := rfl
@[py] theorem fun_LMI0Oracle : ellalgo.fun? "LMI0Oracle" = none := rfl
@[py] theorem class_LMIOldOracle : ellalgo.class? "LMIOldOracle" = some Source.LmiOldOracle.LMIOldOracle := rfl
@[py] theorem fun_LMIOldOracle : ellalgo.fun? "LMIOldOracle" = none := rfl
@[py] theorem class_ProfitOracle : ellalgo.class? "ProfitOracle" = some Source.ProfitOracle.ProfitOracle := rfl
@[py] theorem fun_ProfitOracle : ellalgo.fun? "ProfitOracle" = none := rfl
@[py] theorem class_ProfitRbOracle : ellalgo.class? "ProfitRbOracle" = some Source.ProfitOracle.ProfitRbOracle := rfl
@[py] theorem fun_ProfitRbOracle : ellalgo.fun? "ProfitRbOracle" = none := rfl
@[py] theorem class_ProfitQOracle : ellalgo.class? "ProfitQOracle" = some Source.ProfitOracle.ProfitQOracle := rfl
@[py] theorem fun_ProfitQOracle : ellalgo.fun? "ProfitQOracle" = none := rfl
@[py] theorem class_LowpassOracle : ellalgo.class? "LowpassOracle" = some Source.LowpassOracle.LowpassOracle := rfl
@[py] theorem fun_LowpassOracle : ellalgo.fun? "LowpassOracle" = none := rfl
@[py] theorem fun_create_lowpass_case : ellalgo.fun? "create_lowpass_case" = some Source.LowpassOracle.create_lowpass_case := rfl
@[py] theorem method_EllCalcCore_init : ellalgo.method? "EllCalcCore" "__init__" = some Source.EllCalcCore.EllCalcCore.__init__ := rfl
@[py] theorem prop_EllCalcCore_init : Source.EllCalcCore.EllCalcCore.__init__.isProperty = false := rfl
@[py] theorem method_EllCalcCore_calc_central_cut : ellalgo.method? "EllCalcCore" "calc_central_cut" = some Source.EllCalcCore.EllCalcCore.calc_central_cut := rfl
@[py] theorem prop_EllCalcCore_calc_central_cut : Source.EllCalcCore.EllCalcCore.calc_central_cut.isProperty = false := rfl
@[py] theorem method_EllCalcCore_calc_bias_cut_fast : ellalgo.method? "EllCalcCore" "calc_bias_cut_fast" = some Source.EllCalcCore.EllCalcCore.calc_bias_cut_fast := rfl
@[py] theorem prop_EllCalcCore_calc_bias_cut_fast : Source.EllCalcCore.EllCalcCore.calc_bias_cut_fast.isProperty = false := rfl
@[py] theorem method_EllCalcCore_calc_bias_cut : ellalgo.method? "EllCalcCore" "calc_bias_cut" = some Source.EllCalcCore.EllCalcCore.calc_bias_cut := rfl
@[py] theorem prop_EllCalcCore_calc_bias_cut : Source.EllCalcCore.EllCalcCore.calc_bias_cut.isProperty = false := rfl
@[py] theorem method_EllCalcCore_calc_parallel_central_cut : ellalgo.method? "EllCalcCore" "calc_parallel_central_cut" = some Source.EllCalcCore.EllCalcCore.calc_parallel_central_cut := rfl
@[py] theorem prop_EllCalcCore_calc_parallel_central_cut : Source.EllCalcCore.EllCalcCore.calc_parallel_central_cut.isProperty = false := rfl
@[py] theorem method_EllCalcCore_calc_parallel_central_cut_old : ellalgo.method? "EllCalcCore" "calc_parallel_central_cut_old" = some Source.EllCalcCore.EllCalcCore.calc_parallel_central_cut_old := rfl
@[py] theorem prop_EllCalcCore_calc_parallel_central_cut_old : Source.EllCalcCore.EllCalcCore.calc_parallel_central_cut_old.isProperty = false := rfl
@[py] theorem method_EllCalcCore_calc_parallel_bias_cut : ellalgo.method? "EllCalcCore" "calc_parallel_bias_cut" = some Source.EllCalcCore.EllCalcCore.calc_parallel_bias_cut := rfl
@[py] theorem prop_EllCalcCore_calc_parallel_bias_cut : Source.EllCalcCore.EllCalcCore.calc_parallel_bias_cut.isProperty = false := rfl
@[py] theorem method_EllCalcCore_calc_parallel_bias_cut_fast_old : ellalgo.method? "EllCalcCore" "calc_parallel_bias_cut_fast_old" = some Source.EllCalcCore.EllCalcCore.calc_parallel_bias_cut_fast_old := rfl
@[py] theorem prop_EllCalcCore_calc_parallel_bias_cut_fast_old : Source.EllCalcCore.EllCalcCore.calc_parallel_bias_cut_fast_old.isProperty = false := rfl
@[py] theorem method_EllCalcCore_calc_parallel_bias_cut_fast : ellalgo.method? "EllCalcCore" "calc_parallel_bias_cut_fast" = some Source.EllCalcCore.EllCalcCore.calc_parallel_bias_cut_fast := rfl
@[py] theorem prop_EllCalcCore_calc_parallel_bias_cut_fast : Source.EllCalcCore.EllCalcCore.calc_parallel_bias_cut_fast.isProperty = false := rfl
@[py] theorem method_EllCalcCore_calc_parallel_bias_cut_fast2 : ellalgo.method? "EllCalcCore" "calc_parallel_bias_cut_fast2" = some Source.EllCalcCore.EllCalcCore.calc_parallel_bias_cut_fast2 := rfl
@[py] theorem prop_EllCalcCore_calc_parallel_bias_cut_fast2 : Source.EllCalcCore.EllCalcCore.calc_parallel_bias_cut_fast2.isProperty = false := rfl
@[py] theorem method_EllCalcCore_calc_parallel_bias_cut_old : ellalgo.method? "EllCalcCore" "calc_parallel_bias_cut_old" = some Source.EllCalcCore.EllCalcCore.calc_parallel_bias_cut_old := rfl
@[py] theorem prop_EllCalcCore_calc_parallel_bias_cut_old : Source.EllCalcCore.EllCalcCore.calc_parallel_bias_cut_old.isProperty = false := rfl
@[py] theorem method_EllCalc_init : ellalgo.method? "EllCalc" "__init__" = some Source.EllCalc.EllCalc.__init__ := rfl
@[py] theorem prop_EllCalc_init : Source.EllCalc.EllCalc.__init__.isProperty = false := rfl
@[py] theorem method_EllCalc_calc_single_or_parallel : ellalgo.method? "EllCalc" "calc_single_or_parallel" = some Source.EllCalc.EllCalc.calc_single_or_parallel := rfl
@[py] theorem prop_EllCalc_calc_single_or_parallel : Source.EllCalc.EllCalc.calc_single_or_parallel.isProperty = false := rfl
@[py] theorem method_EllCalc_calc_single_or_parallel_central_cut : ellalgo.method? "EllCalc" "calc_single_or_parallel_central_cut" = some Source.EllCalc.EllCalc.calc_single_or_parallel_central_cut := rfl
@[py] theorem prop_EllCalc_calc_single_or_parallel_central_cut : Source.EllCalc.EllCalc.calc_single_or_parallel_central_cut.isProperty = false := rfl
@[py] theorem method_EllCalc_calc_parallel : ellalgo.method? "EllCalc" "calc_parallel" = some Source.EllCalc.EllCalc.calc_parallel := rfl
@[py] theorem prop_EllCalc_calc_parallel : Source.EllCalc.EllCalc.calc_parallel.isProperty = false := rfl
@[py] theorem method_EllCalc_calc_bias_cut : ellalgo.method? "EllCalc" "calc_bias_cut" = some Source.EllCalc.EllCalc.calc_bias_cut := rfl
@[py] theorem prop_EllCalc_calc_bias_cut : Source.EllCalc.EllCalc.calc_bias_cut.isProperty = false := rfl
@[py] theorem method_EllCalc_calc_single_or_parallel_q : ellalgo.method? "EllCalc" "calc_single_or_parallel_q" = some Source.EllCalc.EllCalc.calc_single_or_parallel_q := rfl
@[py] theorem prop_EllCalc_calc_single_or_parallel_q : Source.EllCalc.EllCalc.calc_single_or_parallel_q.isProperty = false := rfl
@[py] theorem method_EllCalc_calc_parallel_q : ellalgo.method? "EllCalc" "calc_parallel_q" = some Source.EllCalc.EllCalc.calc_parallel_q := rfl
@[py] theorem prop_EllCalc_calc_parallel_q : Source.EllCalc.EllCalc.calc_parallel_q.isProperty = false := rfl
@[py] theorem method_EllCalc_calc_bias_cut_q : ellalgo.method? "EllCalc" "calc_bias_cut_q" = some Source.EllCalc.EllCalc.calc_bias_cut_q := rfl
@[py] theorem prop_EllCalc_calc_bias_cut_q : Source.EllCalc.EllCalc.calc_bias_cut_q.isProperty = false := rfl
@[py] theorem method_Ell_init : ellalgo.method? "Ell" "__init__" = some Source.Ell.Ell.__init__ := rfl
@[py] theorem prop_Ell_init : Source.Ell.Ell.__init__.isProperty = false := rfl
@[py] theorem method_Ell_xc : ellalgo.method? "Ell" "xc" = some Source.Ell.Ell.xc := rfl
@[py] theorem prop_Ell_xc : Source.Ell.Ell.xc.isProperty = false := rfl
@[py] theorem method_Ell_set_xc : ellalgo.method? "Ell" "set_xc" = some Source.Ell.Ell.set_xc := rfl
@[py] theorem prop_Ell_set_xc : Source.Ell.Ell.set_xc.isProperty = false := rfl
@[py] theorem method_Ell_tsq : ellalgo.method? "Ell" "tsq" = some Source.Ell.Ell.tsq := rfl
@[py] theorem prop_Ell_tsq : Source.Ell.Ell.tsq.isProperty = false := rfl
@[py] theorem method_Ell_update_bias_cut : ellalgo.method? "Ell" "update_bias_cut" = some Source.Ell.Ell.update_bias_cut := rfl
@[py] theorem prop_Ell_update_bias_cut : Source.Ell.Ell.update_bias_cut.isProperty = false := rfl
@[py] theorem method_Ell_update_central_cut : ellalgo.method? "Ell" "update_central_cut" = some Source.Ell.Ell.update_central_cut := rfl
@[py] theorem prop_Ell_update_central_cut : Source.Ell.Ell.update_central_cut.isProperty = false := rfl
@[py] theorem method_Ell_update_q : ellalgo.method? "Ell" "update_q" = some Source.Ell.Ell.update_q := rfl
@[py] theorem prop_Ell_update_q : Source.Ell.Ell.update_q.isProperty = false := rfl
@[py] theorem method_Ell_update_core : ellalgo.method? "Ell" "_update_core" = some Source.Ell.Ell._update_core := rfl
@[py] theorem prop_Ell_update_core : Source.Ell.Ell._update_core.isProperty = false := rfl
@[py] theorem method_EllStable_init : ellalgo.method? "EllStable" "__init__" = some Source.EllStable.EllStable.__init__ := rfl
@[py] theorem prop_EllStable_init : Source.EllStable.EllStable.__init__.isProperty = false := rfl
@[py] theorem method_EllStable_xc : ellalgo.method? "EllStable" "xc" = some Source.EllStable.EllStable.xc := rfl
@[py] theorem prop_EllStable_xc : Source.EllStable.EllStable.xc.isProperty = false := rfl
@[py] theorem method_EllStable_set_xc : ellalgo.method? "EllStable" "set_xc" = some Source.EllStable.EllStable.set_xc := rfl
@[py] theorem prop_EllStable_set_xc : Source.EllStable.EllStable.set_xc.isProperty = false := rfl
@[py] theorem method_EllStable_tsq : ellalgo.method? "EllStable" "tsq" = some Source.EllStable.EllStable.tsq := rfl
@[py] theorem prop_EllStable_tsq : Source.EllStable.EllStable.tsq.isProperty = false := rfl
@[py] theorem method_EllStable_update_bias_cut : ellalgo.method? "EllStable" "update_bias_cut" = some Source.EllStable.EllStable.update_bias_cut := rfl
@[py] theorem prop_EllStable_update_bias_cut : Source.EllStable.EllStable.update_bias_cut.isProperty = false := rfl
@[py] theorem method_EllStable_update_central_cut : ellalgo.method? "EllStable" "update_central_cut" = some Source.EllStable.EllStable.update_central_cut := rfl
@[py] theorem prop_EllStable_update_central_cut : Source.EllStable.EllStable.update_central_cut.isProperty = false := rfl
@[py] theorem method_EllStable_update_q : ellalgo.method? "EllStable" "update_q" = some Source.EllStable.EllStable.update_q := rfl
@[py] theorem prop_EllStable_update_q : Source.EllStable.EllStable.update_q.isProperty = false := rfl
@[py] theorem method_EllStable_update_core : ellalgo.method? "EllStable" "_update_core" = some Source.EllStable.EllStable._update_core := rfl
@[py] theorem prop_EllStable_update_core : Source.EllStable.EllStable._update_core.isProperty = false := rfl
@[py] theorem method_BSearchAdaptor_init : ellalgo.method? "BSearchAdaptor" "__init__" = some Source.CuttingPlane.BSearchAdaptor.__init__ := rfl
@[py] theorem prop_BSearchAdaptor_init : Source.CuttingPlane.BSearchAdaptor.__init__.isProperty = false := rfl
@[py] theorem method_BSearchAdaptor_x_best : ellalgo.method? "BSearchAdaptor" "x_best" = some Source.CuttingPlane.BSearchAdaptor.x_best := rfl
@[py] theorem method_BSearchAdaptor_assess_bs : ellalgo.method? "BSearchAdaptor" "assess_bs" = some Source.CuttingPlane.BSearchAdaptor.assess_bs := rfl
@[py] theorem prop_BSearchAdaptor_assess_bs : Source.CuttingPlane.BSearchAdaptor.assess_bs.isProperty = false := rfl
@[py] theorem method_LDLTMgr_init : ellalgo.method? "LDLTMgr" "__init__" = some Source.LdltMgr.LDLTMgr.__init__ := rfl
@[py] theorem prop_LDLTMgr_init : Source.LdltMgr.LDLTMgr.__init__.isProperty = false := rfl
@[py] theorem method_LDLTMgr_factorize : ellalgo.method? "LDLTMgr" "factorize" = some Source.LdltMgr.LDLTMgr.factorize := rfl
@[py] theorem prop_LDLTMgr_factorize : Source.LdltMgr.LDLTMgr.factorize.isProperty = false := rfl
@[py] theorem method_LDLTMgr_factor : ellalgo.method? "LDLTMgr" "factor" = some Source.LdltMgr.LDLTMgr.factor := rfl
@[py] theorem prop_LDLTMgr_factor : Source.LdltMgr.LDLTMgr.factor.isProperty = false := rfl
@[py] theorem method_LDLTMgr_factor_with_allow_semidefinite : ellalgo.method? "LDLTMgr" "factor_with_allow_semidefinite" = some Source.LdltMgr.LDLTMgr.factor_with_allow_semidefinite := rfl
@[py] theorem prop_LDLTMgr_factor_with_allow_semidefinite : Source.LdltMgr.LDLTMgr.factor_with_allow_semidefinite.isProperty = false := rfl
@[py] theorem method_LDLTMgr_is_spd : ellalgo.method? "LDLTMgr" "is_spd" = some Source.LdltMgr.LDLTMgr.is_spd := rfl
@[py] theorem prop_LDLTMgr_is_spd : Source.LdltMgr.LDLTMgr.is_spd.isProperty = false := rfl
@[py] theorem method_LDLTMgr_witness : ellalgo.method? "LDLTMgr" "witness" = some Source.LdltMgr.LDLTMgr.witness := rfl
@[py] theorem prop_LDLTMgr_witness : Source.LdltMgr.LDLTMgr.witness.isProperty = false := rfl
@[py] theorem method_LDLTMgr_sym_quad : ellalgo.method? "LDLTMgr" "sym_quad" = some Source.LdltMgr.LDLTMgr.sym_quad := rfl
@[py] theorem prop_LDLTMgr_sym_quad : Source.LdltMgr.LDLTMgr.sym_quad.isProperty = false := rfl
@[py] theorem method_LDLTMgr_sqrt : ellalgo.method? "LDLTMgr" "sqrt" = some Source.LdltMgr.LDLTMgr.sqrt := rfl
@[py] theorem prop_LDLTMgr_sqrt : Source.LdltMgr.LDLTMgr.sqrt.isProperty = false := rfl
@[py] theorem method_LMIOracle_init : ellalgo.method? "LMIOracle" "__init__" = some Source.LmiOracle.LMIOracle.__init__ := rfl
@[py] theorem prop_LMIOracle_init : Source.LmiOracle.LMIOracle.__init__.isProperty = false := rfl
@[py] theorem method_LMIOracle_assess_feas : ellalgo.method? "LMIOracle" "assess_feas" = some Source.LmiOracle.LMIOracle.assess_feas := rfl
@[py] theorem prop_LMIOracle_assess_feas : Source.LmiOracle.LMIOracle.assess_feas.isProperty = false := rfl
@[py] theorem method_LMI0Oracle_init : ellalgo.method? "LMI0Oracle" "__init__" = some Source.Lmi0Oracle.LMI0Oracle.__init__ := rfl
@[py] theorem prop_LMI0Oracle_init : Source.Lmi0Oracle.LMI0Oracle.__init__.isProperty = false := rfl
@[py] theorem method_LMI0Oracle_assess_feas : ellalgo.method? "LMI0Oracle" "assess_feas" = some Source.Lmi0Oracle.LMI0Oracle.assess_feas := rfl
@[py] theorem prop_LMI0Oracle_assess_feas : Source.Lmi0Oracle.LMI0Oracle.assess_feas.isProperty = false := rfl
@[py] theorem method_LMIOldOracle_init : ellalgo.method? "LMIOldOracle" "__init__" = some Source.LmiOldOracle.LMIOldOracle.__init__ := rfl
@[py] theorem prop_LMIOldOracle_init : Source.LmiOldOracle.LMIOldOracle.__init__.isProperty = false := rfl
@[py] theorem method_LMIOldOracle_assess_feas : ellalgo.method? "LMIOldOracle" "assess_feas" = some Source.LmiOldOracle.LMIOldOracle.assess_feas := rfl
@[py] theorem prop_LMIOldOracle_assess_feas : Source.LmiOldOracle.LMIOldOracle.assess_feas.isProperty = false := rfl
@[py] theorem method_ProfitOracle_init : ellalgo.method? "ProfitOracle" "__init__" = some Source.ProfitOracle.ProfitOracle.__init__ := rfl
@[py] theorem prop_ProfitOracle_init : Source.ProfitOracle.ProfitOracle.__init__.isProperty = false := rfl
@[py] theorem method_ProfitOracle_fn1 : ellalgo.method? "ProfitOracle" "fn1" = some Source.ProfitOracle.ProfitOracle.fn1 := rfl
@[py] theorem prop_ProfitOracle_fn1 : Source.ProfitOracle.ProfitOracle.fn1.isProperty = false := rfl
@[py] theorem method_ProfitOracle_fn2 : ellalgo.method? "ProfitOracle" "fn2" = some Source.ProfitOracle.ProfitOracle.fn2 := rfl
@[py] theorem prop_ProfitOracle_fn2 : Source.ProfitOracle.ProfitOracle.fn2.isProperty = false := rfl
@[py] theorem method_ProfitOracle_grad1 : ellalgo.method? "ProfitOracle" "grad1" = some Source.ProfitOracle.ProfitOracle.grad1 := rfl
@[py] theorem prop_ProfitOracle_grad1 : Source.ProfitOracle.ProfitOracle.grad1.isProperty = false := rfl
@[py] theorem method_ProfitOracle_grad2 : ellalgo.method? "ProfitOracle" "grad2" = some Source.ProfitOracle.ProfitOracle.grad2 := rfl
@[py] theorem prop_ProfitOracle_grad2 : Source.ProfitOracle.ProfitOracle.grad2.isProperty = false := rfl
@[py] theorem method_ProfitOracle_assess_feas : ellalgo.method? "ProfitOracle" "assess_feas" = some Source.ProfitOracle.ProfitOracle.assess_feas := rfl
@[py] theorem prop_ProfitOracle_assess_feas : Source.ProfitOracle.ProfitOracle.assess_feas.isProperty = false := rfl
@[py] theorem method_ProfitOracle_assess_optim : ellalgo.method? "ProfitOracle" "assess_optim" = some Source.ProfitOracle.ProfitOracle.assess_optim := rfl
@[py] theorem prop_ProfitOracle_assess_optim : Source.ProfitOracle.ProfitOracle.assess_optim.isProperty = false := rfl
@[py] theorem method_ProfitRbOracle_init : ellalgo.method? "ProfitRbOracle" "__init__" = some Source.ProfitOracle.ProfitRbOracle.__init__ := rfl
@[py] theorem prop_ProfitRbOracle_init : Source.ProfitOracle.ProfitRbOracle.__init__.isProperty = false := rfl
@[py] theorem method_ProfitRbOracle_assess_optim : ellalgo.method? "ProfitRbOracle" "assess_optim" = some Source.ProfitOracle.ProfitRbOracle.assess_optim := rfl
@[py] theorem prop_ProfitRbOracle_assess_optim : Source.ProfitOracle.ProfitRbOracle.assess_optim.isProperty = false := rfl
@[py] theorem method_ProfitQOracle_init : ellalgo.method? "ProfitQOracle" "__init__" = some Source.ProfitOracle.ProfitQOracle.__init__ := rfl
@[py] theorem prop_ProfitQOracle_init : Source.ProfitOracle.ProfitQOracle.__init__.isProperty = false := rfl
@[py] theorem method_ProfitQOracle_assess_optim_q : ellalgo.method? "ProfitQOracle" "assess_optim_q" = some Source.ProfitOracle.ProfitQOracle.assess_optim_q := rfl
@[py] theorem prop_ProfitQOracle_assess_optim_q : Source.ProfitOracle.ProfitQOracle.assess_optim_q.isProperty = false := rfl
@[py] theorem method_LowpassOracle_init : ellalgo.method? "LowpassOracle" "__init__" = some Source.LowpassOracle.LowpassOracle.__init__ := rfl
@[py] theorem prop_LowpassOracle_init : Source.LowpassOracle.LowpassOracle.__init__.isProperty = false := rfl
@[py] theorem method_LowpassOracle_assess_feas : ellalgo.method? "LowpassOracle" "assess_feas" = some Source.LowpassOracle.LowpassOracle.assess_feas := rfl
@[py] theorem prop_LowpassOracle_assess_feas : Source.LowpassOracle.LowpassOracle.assess_feas.isProperty = false := rfl
@[py] theorem method_LowpassOracle_assess_optim : ellalgo.method? "LowpassOracle" "assess_optim" = some Source.LowpassOracle.LowpassOracle.assess_optim := rfl
@[py] theorem prop_LowpassOracle_assess_optim : Source.LowpassOracle.LowpassOracle.assess_optim.isProperty = false := rfl
@[py] theorem fun_spectral_fact : ellalgo.fun? "spectral_fact" = some Source.SpectralFact.spectral_fact := rfl
@[py] theorem fun_inverse_spectral_fact : ellalgo.fun? "inverse_spectral_fact" = some Source.SpectralFact.inverse_spectral_fact := rfl
@[py] theorem fun_fib : ellalgo.fun? "fib" = some Source.Skeleton.fib := rfl
@[py] theorem nofun_slice : ellalgo.fun? "slice" = none := rfl
@[py] theorem noclass_slice : ellalgo.class? "slice" = none := rfl
@[py] theorem nofun_np_isfinite : ellalgo.fun? "np.isfinite" = none := rfl
@[py] theorem noclass_np_isfinite : ellalgo.class? "np.isfinite" = none := rfl
@[py] theorem nofun_np_abs : ellalgo.fun? "np.abs" = none := rfl
@[py] theorem noclass_np_abs : ellalgo.class? "np.abs" = none := rfl
@[py] theorem nofun_np_min : ellalgo.fun? "np.min" = none := rfl
@[py] theorem noclass_np_min : ellalgo.class? "np.min" = none := rfl
@[py] theorem nofun_np_maximum : ellalgo.fun? "np.maximum" = none := rfl
@[py] theorem noclass_np_maximum : ellalgo.class? "np.maximum" = none := rfl
@[py] theorem nofun_np_hstack : ellalgo.fun? "np.hstack" = none := rfl
@[py] theorem noclass_np_hstack : ellalgo.class? "np.hstack" = none := rfl
@[py] theorem nofun_np_linspace_open : ellalgo.fun? "np.linspace endpoint=" = none := rfl
@[py] theorem noclass_np_linspace_open : ellalgo.class? "np.linspace endpoint=" = none := rfl
@[py] theorem nofun_np_arange_step : ellalgo.fun? "np.arange step=" = none := rfl
@[py] theorem noclass_np_arange_step : ellalgo.class? "np.arange step=" = none := rfl
@[py] theorem nofun_np_fft_fft : ellalgo.fun? "np.fft.fft" = none := rfl
@[py] theorem noclass_np_fft_fft : ellalgo.class? "np.fft.fft" = none := rfl
@[py] theorem nofun_np_fft_ifft : ellalgo.fun? "np.fft.ifft" = none := rfl
@[py] theorem noclass_np_fft_ifft : ellalgo.class? "np.fft.ifft" = none := rfl
@[py] theorem nofun_np_real : ellalgo.fun? "np.real" = none := rfl
@[py] theorem noclass_np_real : ellalgo.class? "np.real" = none := rfl
@[py] theorem nofun_np_convolve : ellalgo.fun? "np.convolve" = none := rfl
@[py] theorem noclass_np_convolve : ellalgo.class? "np.convolve" = none := rfl
@[py] theorem nofun_floor : ellalgo.fun? "floor" = none := rfl
@[py] theorem noclass_floor : ellalgo.class? "floor" = none := rfl
@[py] theorem nofun_pow : ellalgo.fun? "pow" = none := rfl
@[py] theorem noclass_pow : ellalgo.class? "pow" = none := rfl
@[py] theorem nofun_np_cos : ellalgo.fun? "np.cos" = none := rfl
@[py] theorem noclass_np_cos : ellalgo.class? "np.cos" = none := rfl
@[py] theorem nofun_np_log10 : ellalgo.fun? "np.log10" = none := rfl
@[py] theorem noclass_np_log10 : ellalgo.class? "np.log10" = none := rfl
@[py] theorem nofun_np_ones : ellalgo.fun? "np.ones" = none := rfl
@[py] theorem noclass_np_ones : ellalgo.class? "np.ones" = none := rfl
@[py] theorem nofun_np_arange : ellalgo.fun? "np.arange" = none := rfl
@[py] theorem noclass_np_arange : ellalgo.class? "np.arange" = none := rfl
@[py] theorem nofun_np_linspace : ellalgo.fun? "np.linspace" = none := rfl
@[py] theorem noclass_np_linspace : ellalgo.class? "np.linspace" = none := rfl
@[py] theorem nofun_np_concatenate : ellalgo.fun? "np.concatenate axis=" = none := rfl
@[py] theorem noclass_np_concatenate : ellalgo.class? "np.concatenate axis=" = none := rfl
@[py] theorem nofun_sqrt : ellalgo.fun? "sqrt" = none := rfl
@[py] theorem noclass_sqrt : ellalgo.class? "sqrt" = none := rfl
@[py] theorem nofun_math_sqrt : ellalgo.fun? "math.sqrt" = none := rfl
@[py] theorem noclass_math_sqrt : ellalgo.class? "math.sqrt" = none := rfl
@[py] theorem nofun_math_log : ellalgo.fun? "math.log" = none := rfl
@[py] theorem noclass_math_log : ellalgo.class? "math.log" = none := rfl
@[py] theorem nofun_np_sqrt : ellalgo.fun? "np.sqrt" = none := rfl
@[py] theorem noclass_np_sqrt : ellalgo.class? "np.sqrt" = none := rfl
@[py] theorem nofun_np_exp : ellalgo.fun? "np.exp" = none := rfl
@[py] theorem noclass_np_exp : ellalgo.class? "np.exp" = none := rfl
@[py] theorem nofun_np_log : ellalgo.fun? "np.log" = none := rfl
@[py] theorem noclass_np_log : ellalgo.class? "np.log" = none := rfl
@[py] theorem nofun_float : ellalgo.fun? "float" = none := rfl
@[py] theorem noclass_float : ellalgo.class? "float" = none := rfl
@[py] theorem nofun_int : ellalgo.fun? "int" = none := rfl
@[py] theorem noclass_int : ellalgo.class? "int" = none := rfl
@[py] theorem nofun_len : ellalgo.fun? "len" = none := rfl
@[py] theorem noclass_len : ellalgo.class? "len" = none := rfl
@[py] theorem nofun_isinstance : ellalgo.fun? "isinstance" = none := rfl
@[py] theorem noclass_isinstance : ellalgo.class? "isinstance" = none := rfl
@[py] theorem nofun_range : ellalgo.fun? "range" = none := rfl
@[py] theorem noclass_range : ellalgo.class? "range" = none := rfl
@[py] theorem nofun_zip : ellalgo.fun? "zip" = none := rfl
@[py] theorem noclass_zip : ellalgo.class? "zip" = none := rfl
@[py] theorem nofun_sum : ellalgo.fun? "sum" = none := rfl
@[py] theorem noclass_sum : ellalgo.class? "sum" = none := rfl
@[py] theorem nofun_type : ellalgo.fun? "type" = none := rfl
@[py] theorem noclass_type : ellalgo.class? "type" = none := rfl
@[py] theorem nofun_copy_copy : ellalgo.fun? "copy.copy" = none := rfl
@[py] theorem noclass_copy_copy : ellalgo.class? "copy.copy" = none := rfl
@[py] theorem nofun_copy_deepcopy : ellalgo.fun? "copy.deepcopy" = none := rfl
@[py] theorem noclass_copy_deepcopy : ellalgo.class? "copy.deepcopy" = none := rfl
@[py] theorem nofun_np_all : ellalgo.fun? "np.all" = none := rfl
@[py] theorem noclass_np_all : ellalgo.class? "np.all" = none := rfl
@[py] theorem nofun_np_eye : ellalgo.fun? "np.eye" = none := rfl
@[py] theorem noclass_np_eye : ellalgo.class? "np.eye" = none := rfl
@[py] theorem nofun_np_diag : ellalgo.fun? "np.diag" = none := rfl
@[py] theorem noclass_np_diag : ellalgo.class? "np.diag" = none := rfl
@[py] theorem nofun_np_outer : ellalgo.fun? "np.outer" = none := rfl
@[py] theorem noclass_np_outer : ellalgo.class? "np.outer" = none := rfl
@[py] theorem nofun_np_zeros : ellalgo.fun? "np.zeros" = none := rfl
@[py] theorem noclass_np_zeros : ellalgo.class? "np.zeros" = none := rfl
@[py] theorem nofun_np_array : ellalgo.fun? "np.array" = none := rfl
@[py] theorem noclass_np_array : ellalgo.class? "np.array" = none := rfl
@[py] theorem nofun_np_dot : ellalgo.fun? "np.dot" = none := rfl
@[py] theorem noclass_np_dot : ellalgo.class? "np.dot" = none := rfl
@[py] theorem global_sqrt : ellalgo.isGlobal "sqrt" = true := rfl
@[py] theorem global_float : ellalgo.isGlobal "float" = true := rfl
@[py] theorem global_int : ellalgo.isGlobal "int" = true := rfl
@[py] theorem global_len : ellalgo.isGlobal "len" = true := rfl
@[py] theorem global_range : ellalgo.isGlobal "range" = true := rfl
@[py] theorem global_zip : ellalgo.isGlobal "zip" = true := rfl
@[py] theorem global_sum : ellalgo.isGlobal "sum" = true := rfl
@[py] theorem global_isinstance : ellalgo.isGlobal "isinstance" = true := rfl
@[py] theorem global_type : ellalgo.isGlobal "type" = true := rfl
@[py] theorem global_np : ellalgo.isGlobal "np" = true := rfl
@[py] theorem global_math : ellalgo.isGlobal "math" = true := rfl
@[py] theorem global_copy : ellalgo.isGlobal "copy" = true := rfl
@[py] theorem global_CutStatus : ellalgo.isGlobal "CutStatus" = true := rfl
@[py] theorem global_cutting_plane_feas : ellalgo.isGlobal "cutting_plane_feas" = true := rfl
@[py] theorem global_cutting_plane_optim : ellalgo.isGlobal "cutting_plane_optim" = true := rfl
@[py] theorem global_cutting_plane_optim_q : ellalgo.isGlobal "cutting_plane_optim_q" = true := rfl
@[py] theorem global_bsearch : ellalgo.isGlobal "bsearch" = true := rfl
@[py] theorem global_conjugate_gradient : ellalgo.isGlobal "conjugate_gradient" = true := rfl
@[py] theorem global_Options : ellalgo.isGlobal "Options" = true := rfl
@[py] theorem global_EllCalcCore : ellalgo.isGlobal "EllCalcCore" = true := rfl
@[py] theorem global_EllCalc : ellalgo.isGlobal "EllCalc" = true := rfl
@[py] theorem global_Ell : ellalgo.isGlobal "Ell" = true := rfl
@[py] theorem global_EllStable : ellalgo.isGlobal "EllStable" = true := rfl
@[py] theorem global_BSearchAdaptor : ellalgo.isGlobal "BSearchAdaptor" = true := rfl
@[py] theorem global_LDLTMgr : ellalgo.isGlobal "LDLTMgr" = true := rfl
@[py] theorem global_LMIOracle : ellalgo.isGlobal "LMIOracle" = true := rfl
@[py] theorem global_LMI0Oracle : ellalgo.isGlobal "LMI0Oracle" = true := rfl
@[py] theorem global_LMIOldOracle : ellalgo.isGlobal "LMIOldOracle" = true := rfl
@[py] theorem global_ProfitOracle : ellalgo.isGlobal "ProfitOracle" = true := rfl
@[py] theorem global_ProfitRbOracle : ellalgo.isGlobal "ProfitRbOracle" = true := rfl
@[py] theorem global_ProfitQOracle : ellalgo.isGlobal "ProfitQOracle" = true := rfl
@[py] theorem global_LowpassOracle : ellalgo.isGlobal "LowpassOracle" = true := rfl
@[py] theorem global_create_lowpass_case : ellalgo.isGlobal "create_lowpass_case" = true := rfl
@[py] theorem global_floor : ellalgo.isGlobal "floor" = true := rfl
@[py] theorem global_pow : ellalgo.isGlobal "pow" = true := rfl
@[py] theorem global_slice : ellalgo.isGlobal "slice" = true := rfl

section
variable {W : Type} {A : Arith} {ext : ℕ → String → List Val → M W Val} {fuel : ℕ} {v w : Val} {st : St W}

@[py] theorem call_sqrt : call (mach A ext) (fuel + 1) (.glob "sqrt") [v] st = (sqrtOf A v) st := call_lib nofun_sqrt noclass_sqrt
@[py] theorem call_math_sqrt : call (mach A ext) (fuel + 1) (.glob "math.sqrt") [v] st = (sqrtOf A v) st := call_lib nofun_math_sqrt noclass_math_sqrt
@[py] theorem call_math_log : call (mach A ext) (fuel + 1) (.glob "math.log") [v] st = (logOf A v) st := call_lib nofun_math_log noclass_math_log
@[py] theorem call_np_sqrt : call (mach A ext) (fuel + 1) (.glob "np.sqrt") [v] st = (sqrtOf A v) st := call_lib nofun_np_sqrt noclass_np_sqrt
@[py] theorem call_np_exp : call (mach A ext) (fuel + 1) (.glob "np.exp") [v] st = (expOf A v) st := call_lib nofun_np_exp noclass_np_exp
@[py] theorem call_np_log : call (mach A ext) (fuel + 1) (.glob "np.log") [v] st = (npLogOf A v) st := call_lib nofun_np_log noclass_np_log
@[py] theorem call_np_round : call (mach A ext) (fuel + 1) (.glob "np.round") [v] st = (mapNum A (fun x => A.rnd (halfEven x)) v) st := call_lib rfl rfl
@[py] theorem call_len : call (mach A ext) (fuel + 1) (.glob "len") [v] st = (lenOf v) st := call_lib nofun_len noclass_len
@[py] theorem call_sum : call (mach A ext) (fuel + 1) (.glob "sum") [v] st = (M.bind (iterate v) (sumFrom A (.int 0))) st := call_lib nofun_sum noclass_sum
@[py] theorem call_copy_copy : call (mach A ext) (fuel + 1) (.glob "copy.copy") [v] st = (copyOf v) st := call_lib nofun_copy_copy noclass_copy_copy
@[py] theorem call_copy_deepcopy : call (mach A ext) (fuel + 1) (.glob "copy.deepcopy") [v] st = .ok (v.shift st.next) st.dup := call_lib nofun_copy_deepcopy noclass_copy_deepcopy
@[py] theorem call_int : call (mach A ext) (fuel + 1) (.glob "int") [v] st = (builtin A "int" [v]) st := call_lib nofun_int noclass_int
@[py] theorem call_np_dot : call (mach A ext) (fuel + 1) (.glob "np.dot") [v, w] st = (dotOf A v w) st := call_lib nofun_np_dot noclass_np_dot
@[py] theorem call_isinstance : call (mach A ext) (fuel + 1) (.glob "isinstance") [v, w] st = (builtin A "isinstance" [v, w]) st := call_lib nofun_isinstance noclass_isinstance
@[py] theorem call_float : call (mach A ext) (fuel + 1) (.glob "float") [v] st = (builtin A "float" [v]) st := call_lib nofun_float noclass_float
@[py] theorem call_type : call (mach A ext) (fuel + 1) (.glob "type") [v] st = (builtin A "type" [v]) st := call_lib nofun_type noclass_type
@[py] theorem call_np_all : call (mach A ext) (fuel + 1) (.glob "np.all") [v] st = (builtin A "np.all" [v]) st := call_lib nofun_np_all noclass_np_all
@[py] theorem call_np_eye : call (mach A ext) (fuel + 1) (.glob "np.eye") [v] st = (builtin A "np.eye" [v]) st := call_lib nofun_np_eye noclass_np_eye
@[py] theorem call_np_diag : call (mach A ext) (fuel + 1) (.glob "np.diag") [v] st = (builtin A "np.diag" [v]) st := call_lib nofun_np_diag noclass_np_diag
@[py] theorem call_np_outer : call (mach A ext) (fuel + 1) (.glob "np.outer") [v, w] st = (builtin A "np.outer" [v, w]) st := call_lib nofun_np_outer noclass_np_outer
@[py] theorem call_np_zeros : call (mach A ext) (fuel + 1) (.glob "np.zeros") [v] st = (builtin A "np.zeros" [v]) st := call_lib nofun_np_zeros noclass_np_zeros
@[py] theorem call_np_array : call (mach A ext) (fuel + 1) (.glob "np.array") [v] st = (builtin A "np.array" [v]) st := call_lib nofun_np_array noclass_np_array
@[py] theorem call_floor : call (mach A ext) (fuel + 1) (.glob "floor") [v] st = (builtin A "floor" [v]) st := call_lib nofun_floor noclass_floor
@[py] theorem call_pow : call (mach A ext) (fuel + 1) (.glob "pow") [v, w] st = (builtin A "pow" [v, w]) st := call_lib nofun_pow noclass_pow
@[py] theorem call_np_cos : call (mach A ext) (fuel + 1) (.glob "np.cos") [v] st = (builtin A "np.cos" [v]) st := call_lib nofun_np_cos noclass_np_cos
@[py] theorem call_np_log10 : call (mach A ext) (fuel + 1) (.glob "np.log10") [v] st = (builtin A "np.log10" [v]) st := call_lib nofun_np_log10 noclass_np_log10
@[py] theorem call_np_ones : call (mach A ext) (fuel + 1) (.glob "np.ones") [v] st = (builtin A "np.ones" [v]) st := call_lib nofun_np_ones noclass_np_ones
@[py] theorem call_np_arange : call (mach A ext) (fuel + 1) (.glob "np.arange") [v, w] st = (builtin A "np.arange" [v, w]) st := call_lib nofun_np_arange noclass_np_arange
@[py] theorem call_np_linspace (u : Val) : call (mach A ext) (fuel + 1) (.glob "np.linspace") [v, w, u] st = (builtin A "np.linspace" [v, w, u]) st := call_lib nofun_np_linspace noclass_np_linspace
@[py] theorem call_np_concatenate : call (mach A ext) (fuel + 1) (.glob "np.concatenate axis=") [v, w] st = (builtin A "np.concatenate axis=" [v, w]) st := call_lib nofun_np_concatenate noclass_np_concatenate
@[py] theorem call_zip : call (mach A ext) (fuel + 1) (.glob "zip") [v, w] st = (builtin A "zip" [v, w]) st := call_lib nofun_zip noclass_zip
@[py] theorem call_range (vs : List Val) : call (mach A ext) (fuel + 1) (.glob "range") vs st = builtin A "range" vs st := call_lib nofun_range noclass_range

@[py] theorem call_slice (vs : List Val) : call (mach A ext) (fuel + 1) (.glob "slice") vs st = builtin A "slice" vs st := call_lib nofun_slice noclass_slice
@[py] theorem call_np_isfinite (vs : List Val) : call (mach A ext) (fuel + 1) (.glob "np.isfinite") vs st = builtin A "np.isfinite" vs st := call_lib nofun_np_isfinite noclass_np_isfinite
@[py] theorem call_np_abs (vs : List Val) : call (mach A ext) (fuel + 1) (.glob "np.abs") vs st = builtin A "np.abs" vs st := call_lib nofun_np_abs noclass_np_abs
@[py] theorem call_np_min (vs : List Val) : call (mach A ext) (fuel + 1) (.glob "np.min") vs st = builtin A "np.min" vs st := call_lib nofun_np_min noclass_np_min
@[py] theorem call_np_maximum (vs : List Val) : call (mach A ext) (fuel + 1) (.glob "np.maximum") vs st = builtin A "np.maximum" vs st := call_lib nofun_np_maximum noclass_np_maximum
@[py] theorem call_np_hstack (vs : List Val) : call (mach A ext) (fuel + 1) (.glob "np.hstack") vs st = builtin A "np.hstack" vs st := call_lib nofun_np_hstack noclass_np_hstack
@[py] theorem call_np_linspace_open (vs : List Val) : call (mach A ext) (fuel + 1) (.glob "np.linspace endpoint=") vs st = builtin A "np.linspace endpoint=" vs st := call_lib nofun_np_linspace_open noclass_np_linspace_open
@[py] theorem call_np_arange_step (vs : List Val) : call (mach A ext) (fuel + 1) (.glob "np.arange step=") vs st = builtin A "np.arange step=" vs st := call_lib nofun_np_arange_step noclass_np_arange_step
@[py] theorem call_np_fft_fft (vs : List Val) : call (mach A ext) (fuel + 1) (.glob "np.fft.fft") vs st = builtin A "np.fft.fft" vs st := call_lib nofun_np_fft_fft noclass_np_fft_fft
@[py] theorem call_np_fft_ifft (vs : List Val) : call (mach A ext) (fuel + 1) (.glob "np.fft.ifft") vs st = builtin A "np.fft.ifft" vs st := call_lib nofun_np_fft_ifft noclass_np_fft_ifft
@[py] theorem call_np_real (vs : List Val) : call (mach A ext) (fuel + 1) (.glob "np.real") vs st = builtin A "np.real" vs st := call_lib nofun_np_real noclass_np_real
@[py] theorem call_np_convolve (vs : List Val) : call (mach A ext) (fuel + 1) (.glob "np.convolve") vs st = builtin A "np.convolve" vs st := call_lib nofun_np_convolve noclass_np_convolve

@[py] theorem builtin_range1 (n : ℤ) : builtin A "range" [.int n] st = .ok (.list (intsFrom 0 n.toNat)) st := rfl
@[py] theorem builtin_range2 (lo hi : ℤ) : builtin A "range" [.int lo, .int hi] st = .ok (.list (intsFrom lo (hi - lo).toNat)) st := rfl
@[py] theorem builtin_float_int (k : ℤ) : builtin A "float" [.int k] st = .ok (.num (A.rnd k)) st := rfl
@[py] theorem builtin_float_num (x : ℝ) : builtin A "float" [.num x] st = .ok (.num x) st := rfl
@[py] theorem builtin_float_ninf : builtin A "float" [.str "-inf"] st = .ok .ninf st := rfl
@[py] theorem builtin_cos (v : Val) : builtin A "np.cos" [v] st = mapNum A (fun x => A.rnd (Real.cos x)) v st := rfl
@[py] theorem builtin_floor_num (x : ℝ) : builtin A "floor" [.num x] st = .ok (.int ⌊x⌋) st := rfl
@[py] theorem builtin_ones (r c : ℤ) : builtin A "np.ones" [.tuple [.int r, .int c]] st = allocObj (.mat r.toNat c.toNat fun _ _ => 1) st := rfl
@[py] theorem builtin_arange (lo hi : ℤ) : builtin A "np.arange" [.int lo, .int hi] st = allocObj (.vec (hi - lo).toNat fun i => ((lo + (i : ℕ) : ℤ) : ℝ)) st := rfl
@[py] theorem builtin_linspace_pi (k n : ℤ) : builtin A "np.linspace" [.int k, .glob "np.pi", .int n] st
    = allocObj (.vec n.toNat (linspace A (A.rnd k) (A.rnd Real.pi) n.toNat)) st := rfl
open Classical in
@[py] theorem builtin_int_num (x : ℝ) : builtin A "int" [.num x] st = .ok (.int (if 0 ≤ x then ⌊x⌋ else ⌈x⌉)) st := rfl
@[py] theorem builtin_int_int (k : ℤ) : builtin A "int" [.int k] st = .ok (.int k) st := rfl
@[py] theorem builtin_type_num (x : ℝ) : builtin A "type" [.num x] st = .ok (.glob "float") st := rfl
@[py] theorem builtin_type_int (k : ℤ) : builtin A "type" [.int k] st = .ok (.glob "int") st := rfl
@[py] theorem sqrtOf_num (x : ℝ) : sqrtOf A (.num x) st = if x < 0 then .exc "ValueError" st else .ok (.num (A.rnd (Real.sqrt x))) st := by
  simp only [sqrtOf, Val.toFloat]; split <;> rfl
/-- `isinstance(v, (int, float))`. -/
def isNumber (v : Val) : M W Val :=
  match v with
  | .int _ | .bool _ | .num _ => M.pure (.bool true)
  | .glob _ => M.stuck
  | _ => M.pure (.bool false)

@[py] theorem isinstance_number (v : Val) : builtin A "isinstance" [v, .tuple [.glob "int", .glob "float"]] st = isNumber v st := by
  cases v <;> rfl
@[py] theorem isNumber_int (k : ℤ) : isNumber (.int k) st = .ok (.bool true) st := rfl
@[py] theorem isNumber_num (x : ℝ) : isNumber (.num x) st = .ok (.bool true) st := rfl
@[py] theorem isNumber_ref (l : ℕ) : isNumber (.ref l) st = .ok (.bool false) st := rfl
@[py] theorem isNumber_tuple (vs : List Val) : isNumber (.tuple vs) st = .ok (.bool false) st := rfl
@[py] theorem isNumber_list (vs : List Val) : isNumber (.list vs) st = .ok (.bool false) st := rfl

end

end Ellalgo.Py
