C54 | proved | Coord.C54_car_cyl_car Coord.C54_car_sph_car Coord.C54_cyl_sph_cyl Coord.C54_cyl_car_cyl Coord.C54_cyl_car_cyl_mod Coord.C54_sph_car_sph Coord.C54_sph_cyl_sph Coord.C54_triangle_sph Coord.C54_triangle_car Coord.C54_triangle_cyl Coord.C54_ranges Coord.C54_distances | exact real arithmetic; off the axis for round trips that start from angles
C55 | proved | Coord.C55_car_cyl_car Coord.C55_car_sph_car Coord.C55_cyl_sph_cyl Coord.C55_cyl_sph_cyl_origin Coord.C55_cyl_car_cyl Coord.C55_sph_cyl_sph Coord.C55_triangle_sph Coord.C55_pos_part Coord.C55_speed Coord.C55_Lz Coord.C55_Ltotal Coord.C55_velocity_cyl_car Coord.C55_velocity_sph_cyl Coord.C55_velocity_sph_car Coord.C55_velocity_car_cyl Coord.C55_velocity_cyl_sph Coord.C55_momenta Coord.C55_origin_vphi_lost Coord.C55_origin_theta_range | exact real arithmetic; at the origin cylindrical->spherical drops vphi and can give theta outside [0,pi] (shown by C55_origin_*)
C56 | proved | Coord.C56_car_cyl Coord.C56_cyl_car Coord.C56_sph_cyl Coord.C56_sph_car Coord.C56_cyl_sph Coord.C56_car_sph Coord.C56_position | exact real arithmetic; the prolate spheroidal and Axi systems are C58, C59
C57 | proved | Coord.C57_grad_cyl_car Coord.C57_hess_cyl_car Coord.C57_grad_sph_car Coord.C57_hess_sph_car Coord.C57_grad_car_cyl Coord.C57_hess_car_cyl Coord.C57_grad_car_sph Coord.C57_hess_car_sph Coord.C57_grad_sph_cyl Coord.C57_hess_sph_cyl Coord.C57_grad_cyl_sph Coord.C57_hess_cyl_sph | exact real arithmetic; all six pairs of Cartesian/cylindrical/spherical
C60 | proved | Coord.C60_grad_car Coord.C60_hess_car Coord.C60_grad_cyl Coord.C60_hess_cyl Coord.C60_sph Coord.C60_grad_car_origin Coord.C60_hess_car_origin | at the origin: Cartesian coordinates only
C61 | proved | Coord.C61_euler_sequence Coord.C61_isRotation Coord.C61_roundtrip_vec Coord.C61_roundtrip_pos Coord.C61_roundtrip_posvel Coord.C61_inverse_angles Coord.C61_identity Coord.C61_isometry Coord.C61_invariants Coord.C61_toEuler_ranges Coord.C61_toEuler_reconstruct Coord.C61_isFaceOn Coord.C61_vel2 Coord.C61_grad_from Coord.C61_grad_to Coord.C61_hess_from Coord.C61_hess_to Coord.C61_roundtrip_tensors | exact real arithmetic
C58 | partial | Coord.Prol.C58_equation Coord.Prol.C58_cyl_prol_cyl Coord.Prol.C58_prol_cyl_prol Coord.Prol.C58_rejects Coord.Prol.C58_focal Coord.Prol.C58_deriv_cyl_prol Coord.Prol.C58_deriv2_cyl_prol Coord.Prol.C58_velocity Coord.Prol.C58_deriv_prol_cyl Coord.Prol.C58_deriv2_prol_cyl_partial Coord.Prol.C58_refuted_mixed Coord.Prol.C58_grad_prol_cyl Coord.Prol.C58_grad_cyl_prol Coord.Prol.C58_hess_prol_cyl | the mixed second derivatives of the map (lambda,nu)->(R,z) returned by the code have the wrong sign (C58_refuted_mixed), so the full property is false; everything else in it is proved in exact real arithmetic
C59 | proved | Coord.Axi.C59_cyl_axi_cyl Coord.Axi.C59_axi_cyl_axi Coord.Axi.C59_disk_mirror Coord.Axi.C59_refuted_origin Coord.Axi.C59_pos_part Coord.Axi.C59_vel_cyl_axi_cyl Coord.Axi.C59_vel_axi_cyl_axi Coord.Axi.C59_speed Coord.Axi.C59_Lz Coord.Axi.C59_angular Coord.Axi.C59_momenta Coord.Axi.C59_origin_velocity Coord.Axi.C59_deriv_axi_cyl Coord.Axi.C59_deriv2_axi_cyl Coord.Axi.C59_deriv_cyl_axi Coord.Axi.C59_deriv2_cyl_axi Coord.Axi.C59_velocity Coord.Axi.C59_grad_axi_cyl Coord.Axi.C59_grad_cyl_axi Coord.Axi.C59_hess_axi_cyl Coord.Axi.C59_hess_cyl_axi | exact real arithmetic, infinite positions not modelled; at the origin with Delta^2=0 the code returns NaN (C59_refuted_origin) and reverses an ingoing velocity (C59_origin_velocity); derivatives are proved off the axis and off the focal disk
