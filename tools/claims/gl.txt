C38 | proved | GL.C38_table GL.C38_refuted_zero | N>=1 (N=0 is undefined behaviour in the code, shown)
C52 | proved | GL.C52_integrateGL | all 23 tabulated rules (whole table checked by the kernel), decimal literals as written, exact arithmetic otherwise
C53 | partial | GL.C53_values GL.C53_fixed_point GL.C53_middle GL.C53_quadrature GL.rule_exists GL.C53_refuted_overflow | exactness is proved for the limit point of the iteration (zero correction); convergence of the iteration and the size of the last correction are not; for N>1290 the code overflows (shown)
