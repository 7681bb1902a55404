C86 | proved | Cubature.C86_rule Cubature.C86_exact Cubature.C86_error | decimal constants of the code: the relative deviation from exactness is bounded; with exact square roots the rule is exact
C87 | proved | Cubature.C87_priority_queue Cubature.push_spec Cubature.pop_spec | any history of operations starting from the empty heap
C88 | partial | Cubature.C88_result Cubature.C88_outcome Cubature.C88_success Cubature.C88_numEval Cubature.C88_refuted_limit Cubature.C88_worst_first Cubature.C88_inside Cubature.C88_scale Cubature.C88_refuted_reversed Cubature.C88_polynomial | refuted: the limit on the number of evaluations is not an upper limit (the overshoot is bounded), reversed limits in one dimension suppress the refinement; scale invariance is proved for d other than 1; the variant with the CUBA library is not modelled
