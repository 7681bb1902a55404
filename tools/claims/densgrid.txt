C91 | partial | DensGrid.C91_constructor DensGrid.C91_cells DensGrid.C91_cell_names DensGrid.C91_elements DensGrid.C91_nodes DensGrid.C91_continuous DensGrid.C91_outside DensGrid.C91_refuted_single_shell | Everything is proved except the last sentence, which is false of the code: a grid with a single shell drops the points exactly at its outer radius (refutation theorem). Real arithmetic.
C92 | proved | DensGrid.C92_sh_constructor DensGrid.C92_sh_elements DensGrid.C92_sh_outside DensGrid.C92_cyl_constructor DensGrid.C92_cyl_cells DensGrid.C92_cyl_elements DensGrid.C92_cyl_outside | Real arithmetic; the Legendre functions are those of C48, the trigonometric ones those of C29. On the z axis the azimuthal angle is arbitrary, and the cylindrical scheme is described off the axis.
C94 | proved | DensGrid.C94_classic DensGrid.C94_jacobian DensGrid.C94_classic_mass DensGrid.C94_classic_points DensGrid.C94_cyl DensGrid.C94_cyl_mass DensGrid.C94_cyl_points DensGrid.C94_sh DensGrid.C94_sh_mass DensGrid.C94_sh_points | Real arithmetic. The one-dimensional tables in the radial and pane coordinates are the literal 19-digit ones; the table in cos(theta) is any exact Gauss-Legendre rule. The convergence of the quadrature to the integral is not part of the claim.
