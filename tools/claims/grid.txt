C35 | proved | GridGen.C35_uniform GridGen.C35_exp GridGen.C35_nonuniform GridGen.C35_bracket | exact real arithmetic; NaN parameters (which the code does not reject) are not represented; nonuniform grid for an arbitrary result of the root finder
C36 | proved | GridGen.C36_mirror GridGen.C36_symmetric_even GridGen.C36_symmetric GridGen.C36_symmetric_infinite | all grids
