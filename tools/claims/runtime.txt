C30 | partial | SharedPtr.C30_deleted_iff_unowned_partial SharedPtr.C30_counts_partial SharedPtr.C30_no_leak_partial SharedPtr.assign_var_valid SharedPtr.C30_refuted_self_owned SharedPtr.C30_refuted_reset_alias | proved for all histories except assignments that destroy their own target (a member pointer that is the sole owner of its object): there the code writes to a destroyed pointer (proved refutation); reset() on an aliasing pointer with null address keeps the ownership (proved)
C31 | proved | CtrlBreak.C31_handler_restored CtrlBreak.C31_triggered_iff CtrlBreak.C31_outside_frozen CtrlBreak.C31_no_assert | all histories of constructor/destructor steps with interrupts between any two of them; vector push_back assumed not to throw
C40 | proved | Units.C40_grav_unity Units.C40_factors Units.C40_invariance Units.C40_external Units.C40_external_trivial | exact real arithmetic; all 16 units
