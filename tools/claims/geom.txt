C79 | proved | Geom.C79_clip Geom.C79_winding Geom.C79_inside_reverse Geom.C79_area Geom.C79_reverse Geom.C79_clip_integral Geom.C79_clip_area | exact arithmetic; any polygon, including self-intersecting
C80 | partial | Geom.C80_integrals | degrees 0 and 1 (linear B-splines, exact quadratures); for degrees 2 and 3 the code uses rounded or inexact quadrature rules
