C90 | partial | Actions.C90_motion Actions.C90_frequencies Actions.C90_radial_action Actions.C90_map_eval_actions Actions.C90_map_eval_angles Actions.C90_eval_map Actions.C90_refuted_polar Actions.C90_refuted_unwrapped | real arithmetic, Kepler's equation solved exactly; proved for all regular actions and angles in the basic interval; the code refutes the property for the radial angle outside [0,2pi) and for zero azimuthal action
