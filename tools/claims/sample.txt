C89 | proved | Sample.C89_sample Sample.C89_inside Sample.C89_constant Sample.C89_schedule | real arithmetic; positive number of samples; the schedule permutes whole blocks and cells (no weak-memory effects); the unsynchronized error message is not modelled
