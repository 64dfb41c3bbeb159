{"id": "C01", "title": "Quad tree behaves like a multiset under any add/remove history", "statement": "After any sequence of add() and remove() calls (each item added at most once at a time), the items reachable in the quad tree are exactly the items whose add() succeeded and that were not removed since, and size() is their number; no internal assertion of the tree fires.", "quantifier": "all sequences of add/remove calls of any length, all item positions, all tree extents, all max_item and max_depth", "why_tests_cant": "splitting and merging is triggered by history; tests run a handful of insert/remove orders with random points that almost never hit cell borders", "anchors": ["src/utils/QuadTree.h: QuadTree::add, remove, split_qtree, distribute_items, merge, size"]}
{"id": "C02", "title": "Rectangle and circle queries return exactly the items inside", "statement": "For every tree produced by add/remove calls, get_items(lowleft, upright) returns every stored item lying in the closed rectangle exactly once and nothing else, and get_items(center, r) returns every stored item with distance < r exactly once and nothing else; the return value is the number of items appended.", "quantifier": "all trees reachable by add/remove, all rectangles, all centres and radii >= 0", "why_tests_cant": "a pruning mistake shows only for particular alignments of query window and cell borders at particular depths", "anchors": ["src/utils/QuadTree.h: get_items (rect, circle)", "src/utils/Geometry.h: rect_overlap, in_on_rect"]}
{"id": "C03", "title": "Quad tree shape invariants", "statement": "In every reachable tree: the depth never exceeds max_depth; a leaf above max_depth never holds more than max_items items; a split cell always holds more than max_items items; every stored item lies in the closed extent of the cell storing it; merging after a removal always succeeds.", "quantifier": "all add/remove histories, all positions, all parameters", "why_tests_cant": "depth and capacity are emergent over the whole history, coincident points force the depth limit", "anchors": ["src/utils/QuadTree.h: add, remove, merge, split_qtree, max_items, max_depth"]}
{"id": "C04", "title": "add() and remove() report success truthfully", "statement": "add() returns true iff the item lies in the closed tree extent and otherwise leaves the tree unchanged; remove() of a stored item returns true and removes just that item; remove() of an item outside the extent returns false and changes nothing.", "quantifier": "all reachable trees, all items", "why_tests_cant": "needs every tree shape and every border position", "anchors": ["src/utils/QuadTree.h: add, remove", "src/utils/Container.h: insert, remove"]}
{"id": "C05", "title": "get_nearest returns a nearest item", "statement": "For a query point inside the tree extent, if get_nearest returns an item, no stored item is strictly closer; if the tree stores an item closer than twice the size of the leaf around the query point, the result is not null.", "quantifier": "all reachable trees, all query points in the extent", "why_tests_cant": "the search radius is derived from the leaf size; failures need sparse trees with deep leaves next to empty ones", "anchors": ["src/utils/QuadTree.h: get_nearest, get_leaf", "src/utils/Container.h: get_nearest"]}
{"id": "C06", "title": "get_nearest finds something in every non-empty container", "statement": "A user expects get_nearest on a non-empty container to return an item for any location. (The code returns nullptr when all items are farther than twice the leaf size and dereferences a null leaf when the location is outside the extent.)", "quantifier": "all non-empty trees, all locations", "why_tests_cant": "tests use dense point clouds where the leaf is always small and populated", "anchors": ["src/utils/QuadTree.h: get_nearest", "src/utils/Container.h: get_nearest", "src/algorithm/Boundary.h: create_boundary_shape"]}
{"id": "C07", "title": "Moving an item keeps the container consistent", "statement": "After update(item, xy_new) returns true, the container behaves as if the item had been removed and re-inserted at xy_new: it is found by queries at its new location exactly once and can be removed afterwards.", "quantifier": "all reachable containers, all items, all new coordinates", "why_tests_cant": "the failing case needs the new coordinate to lie exactly on a border between two cells", "anchors": ["src/utils/Container.h: update, remove", "src/utils/QuadTree.h: get_leaf, add, remove", "src/algorithm/MeshCleanup.h: set_vertex_coordinates"]}
{"id": "C08", "title": "Container list, waste and spatial index agree", "statement": "After any history of insert and remove, size() is the number of live items, every live item that was inserted inside the extent is found by spatial queries, removed items are in the waste until clear_waste(), nothing is in both; remove() of an item outside the extent fails and leaves it in the list.", "quantifier": "all histories of insert/remove/clear_waste", "why_tests_cant": "tests check single operations, not arbitrary histories", "anchors": ["src/utils/Container.h: insert, push_back, remove, clear_waste, size"]}
{"id": "C09", "title": "Custom query predicates are honoured", "statement": "A predicate passed to get_items decides which stored items of overlapping cells are reported. (False in the code for split trees: the recursion drops the predicate.)", "quantifier": "all trees, all predicates", "why_tests_cant": "depends on whether the tree happens to be split", "anchors": ["src/utils/QuadTree.h: get_items(qfun)"]}
{"id": "C10", "title": "Property flags are independent", "statement": "For vertices and edges: after add_property(p) has_property(q) holds iff q was already set or q is contained in p; after remove_property(p) no bit of p is set and the others are unchanged; the flags on_front/in_quad_layer/is_fixed/on_boundary (vertex) and on_boundary/is_fixed/is_ghost (edge) do not interfere.", "quantifier": "all flag words and all sequences of flag operations", "why_tests_cant": "2^8 words times all operation sequences", "anchors": ["src/algorithm/Vertex.h: add_property, set_property, remove_property, has_property", "src/algorithm/Edge.h: add_property, set_property, remove_property, has_property"]}
{"id": "C11", "title": "Orientation predicate is consistent", "statement": "orientation(p,q,r) is invariant under cyclic rotation of its arguments, swapping two arguments exchanges CW and CCW and keeps CL, it is invariant under translation, and is_left/is_lefton are its decisions.", "quantifier": "all points, any tolerance", "why_tests_cant": "unbounded coordinate space", "anchors": ["src/utils/Geometry.h: orientation, is_left, is_lefton"]}
{"id": "C12", "title": "Segment crossing test is symmetric and sound", "statement": "line_line_crossing and line_line_intersection do not depend on the order of the two segments nor on the order of the end points of each segment; line_line_crossing returns true only if the open segments share a point; adjacent segments sharing an end point never cross.", "quantifier": "all points", "why_tests_cant": "unbounded coordinate space and degenerate configurations", "anchors": ["src/utils/Geometry.h: line_line_crossing, line_line_intersection"]}
{"id": "C13", "title": "Point in triangle / quad tests", "statement": "For a counter-clockwise triangle every convex combination of the corners passes in_on_triangle; every point passing in_triangle is a strict convex combination of the corners. The same inclusion for convex counter-clockwise quads and in_on_quad.", "quantifier": "all triangles/quads, all points", "why_tests_cant": "unbounded coordinate space", "anchors": ["src/utils/Geometry.h: in_on_triangle, in_triangle, in_on_quad, in_quad"]}
{"id": "C14", "title": "Point-segment distance is the minimum over the segment", "statement": "distance_point_edge_sqr(p,e1,e2) is attained at a point of the segment and no point of the segment is closer, for e1 != e2; swapping e1 and e2 does not change it.", "quantifier": "all p, e1 != e2", "why_tests_cant": "unbounded coordinate space", "anchors": ["src/utils/Geometry.h: distance_point_edge_sqr"]}
{"id": "C15", "title": "polygon_area laws", "statement": "polygon_area is translation invariant, changes sign under reversal of the vertex list, does not depend on which vertex comes first, and equals the sum of the signed triangle areas of the fan from any point.", "quantifier": "all vertex lists of any length", "why_tests_cant": "all polygons of all sizes", "anchors": ["src/utils/Geometry.h: polygon_area"]}
{"id": "C16", "title": "MOD, CLAMP and argsort", "statement": "MOD(n,M) for M>0 lies in [0,M) and is congruent to n also for negative n; CLAMP(x,lo,hi) lies in [lo,hi] when lo<=hi and is x when x is inside; argsort(v) is a permutation of the indices which sorts v and is stable.", "quantifier": "all integers, all vectors", "why_tests_cant": "unbounded inputs", "anchors": ["src/utils/MathUtility.h: MOD, CLAMP, argsort"]}
{"id": "C17", "title": "Oriented edge lists are connected chains", "statement": "An oriented edge list filled through EdgeList::add_edge is always a connected chain: consecutive edges share a vertex; an add_edge that would break the chain throws and leaves the list unchanged.", "quantifier": "all sequences of add_edge calls", "why_tests_cant": "all call sequences", "anchors": ["src/algorithm/EdgeList.h: add_edge, insert_edge"]}
{"id": "C18", "title": "Boundaries built from coordinates are closed loops of the right orientation", "statement": "set_shape_from_coordinates (and hence all shape functions) produces one edge per coordinate, the edges form one closed loop through the given coordinates, exterior boundaries have non-negative enclosed area and interior boundaries non-positive enclosed area, whatever orientation the input had.", "quantifier": "all coordinate lists with distinct points, both boundary types", "why_tests_cant": "all polygons of all sizes and orientations", "anchors": ["src/algorithm/Boundary.h: create_boundary_shape, set_shape_from_coordinates, set_shape_rectangle, set_shape_triangle, set_shape_circle"]}
{"id": "C19", "title": "Edge markers follow the user's segments", "statement": "The marker given for the i-th segment (vertex i to vertex i+1) ends up on the edge between these two vertices regardless of the orientation of the input. (False when the loop is reversed: markers shift by one segment.)", "quantifier": "all coordinate lists and marker lists", "why_tests_cant": "tests use one marker for all edges or counter-clockwise input", "anchors": ["src/algorithm/Boundary.h: create_boundary_shape"]}
{"id": "C20", "title": "Boundary area equals the polygon area", "statement": "For every closed chain of edges the area() maintained by the edge list equals the shoelace area of the polygon, hence Domain::area() is the enclosed area of the exterior boundaries minus that of the interior ones.", "quantifier": "all closed chains", "why_tests_cant": "all polygons of all sizes", "anchors": ["src/algorithm/EdgeList.h: compute_area, area", "src/algorithm/Domain.h: area"]}
{"id": "C21", "title": "Splitting an edge keeps the loop and its area", "statement": "split_edge replaces an edge by two edges through a new vertex on the segment, keeps the chain closed, keeps markers and properties and keeps area(). (area() is stale/double counted in the code for oriented lists.)", "quantifier": "all closed chains, all edges, all split factors", "why_tests_cant": "tests only check the two new edges", "anchors": ["src/algorithm/EdgeList.h: split_edge, compute_area"]}
{"id": "C22", "title": "Split position follows the documented parameter", "statement": "split_edge documents that s -> 0 splits near v1; the new vertex should be v1 + s (v2 - v1). (The code uses s v1 + (1-s) v2; only s = 1/2 agrees.)", "quantifier": "all edges, all s", "why_tests_cant": "tests use s = 0.5", "anchors": ["src/algorithm/EdgeList.h: split_edge", "src/algorithm/QuadLayering.h: place_start_vertex, place_end_vertex"]}
{"id": "C23", "title": "Inside test decision for domains", "statement": "Domain::is_inside(p) is true iff p is inside every exterior boundary and inside no interior boundary in the sense of EdgeList::is_inside; EdgeList::is_inside is false for points outside the bounding box of the loop and is invariant under reordering of the edges.", "quantifier": "all domains, all points", "why_tests_cant": "all polygons and points", "anchors": ["src/algorithm/Domain.h: is_inside", "src/algorithm/EdgeList.h: is_inside"]}
{"id": "C24", "title": "Points on boundary edges count as inside", "statement": "EdgeList::is_inside documents that points on edges are inside. (False: e.g. points in the middle of the left side of a rectangle.)", "quantifier": "all loops, all edge points", "why_tests_cant": "tests only try corner points and horizontal edges", "anchors": ["src/algorithm/EdgeList.h: is_inside"]}
{"id": "C25", "title": "Domain extent is the bounding box of its vertices", "statement": "Domain::extent() returns minimum and maximum of the vertex coordinates. (False: it always contains the origin.)", "quantifier": "all vertex sets", "why_tests_cant": "tests place domains around the origin", "anchors": ["src/algorithm/Domain.h: extent", "src/algorithm/MeshChecker.h: check_completeness"]}
{"id": "C26", "title": "Self-intersecting boundaries are rejected", "statement": "intersects_self()/intersects_edgelist() report true iff two edges intersect. No false alarm holds; (completeness is false in the code because edges are looked up by centroid only.)", "quantifier": "all edge lists", "why_tests_cant": "needs edges whose centroids are far from their crossing", "anchors": ["src/algorithm/EdgeList.h: intersects_self, intersects_edgelist", "src/algorithm/EntityChecks.h: check_domain_validity"]}
{"id": "C27", "title": "Effective element size is positive and bounded by the user size function", "statement": "For every domain the size used for meshing at p is > 0 and <= the user size function at p, and is >= the minimum of the user value and all local edge/vertex sizes.", "quantifier": "all domains with positive-length edges and positive vertex sizes, all points, all user size functions", "why_tests_cant": "real-valued, all domains", "anchors": ["src/algorithm/Domain.h: SizeFunction::evaluate, Domain::size_function"]}
{"id": "C28", "title": "Size function export is complete", "statement": "export_size_function prints Nx*Ny values, each grid value exactly once in row-major order, ten per line (last line shorter).", "quantifier": "all Nx, Ny", "why_tests_cant": "all grid sizes modulo ten", "anchors": ["src/algorithm/Domain.h: export_size_function"]}
{"id": "C29", "title": "Front initialisation data is deduplicated and consistent", "statement": "For every set of boundaries and fixed edges the collected front data has parallel arrays of equal length, every edge refers to in-range vertex ids whose coordinates are the edge's end points (swapped iff the edge belongs to a neighbour mesh), and no two vertex ids have the same coordinates.", "quantifier": "all edge sets", "why_tests_cant": "all domains", "anchors": ["src/algorithm/FrontInitData.h: collect_front_edges, add_edge_data, add_edge_vertex"]}
{"id": "C30", "title": "Initial advancing front is balanced", "statement": "For closed boundaries and arbitrary fixed edges the initial front contains every fixed edge in both directions, so every vertex has as many incoming as outgoing front edges.", "quantifier": "all closed boundaries, all sets of fixed edges", "why_tests_cant": "all domains", "anchors": ["src/algorithm/Front.h: init_front, init_front_edges"]}
{"id": "C31", "title": "Boundary refinement partitions the edge", "statement": "Refining a front edge inserts vertices on the open segment in strictly increasing order from start to end, the first and last sub edge keep the end points and the marker, and every sub edge has positive length. For a constant size function h every sub edge has a length of at least h/2 and less than 3h/2. (False for general size functions: with a size that jumps along the edge an inserted vertex can land outside the segment.)", "quantifier": "all edges, all positive size functions", "why_tests_cant": "all real edge lengths and size functions", "anchors": ["src/algorithm/Front.h: create_sub_vertex_coords, create_sub_edges, refine_edge"]}
{"id": "C32", "title": "Boundary refinement terminates", "statement": "create_sub_vertex_coords terminates for every size function bounded below by a positive constant.", "quantifier": "all edges, all such size functions", "why_tests_cant": "termination", "anchors": ["src/algorithm/Front.h: create_sub_vertex_coords"]}
{"id": "C33", "title": "Front sorting is a permutation by edge length", "statement": "sort_edges neither loses nor duplicates front edges and orders them by length in the requested direction.", "quantifier": "all fronts", "why_tests_cant": "all fronts", "anchors": ["src/algorithm/Front.h: sort_edges", "src/utils/Container.h: sort"]}
{"id": "C34", "title": "Advancing the front conserves area", "statement": "In every state reached by advancing the front with correctly oriented side edges, mesh area plus signed area enclosed by the remaining front equals the area enclosed by the initial front.", "quantifier": "all fronts, all sequences of advance steps of any length", "why_tests_cant": "an invariant over unbounded histories and all geometries", "anchors": ["src/algorithm/FrontUpdate.h: advance_front", "src/algorithm/Mesh.h: area, add_area"]}
{"id": "C35", "title": "An emptied front means a completely meshed domain", "statement": "When the front is empty the mesh area equals the domain area and the triangles' boundary (as a chain of directed edges) is exactly the domain boundary.", "quantifier": "all domains, all successful runs", "why_tests_cant": "all runs", "anchors": ["src/algorithm/FrontUpdate.h: advance_front", "src/algorithm/Triangulation.h: generate_elements", "src/algorithm/MeshChecker.h: check_completeness"]}
{"id": "C36", "title": "The front stays balanced", "statement": "Every advance step preserves that every vertex has as many incoming as outgoing front edges. (True when the side edges taken from the front run against the new triangle; false in general: the code looks side edges up without direction, and where two front edges connect the same vertices in opposite directions (a slit) it may take the wrong one.)", "quantifier": "all reachable fronts", "why_tests_cant": "needs fronts with slits consumed in particular orders", "anchors": ["src/algorithm/FrontUpdate.h: advance_front", "src/algorithm/EdgeList.h: get_edge"]}
{"id": "C37", "title": "No duplicate interior edges", "statement": "In every history the number of triangle sides between two vertices is twice the number of interior mesh edges plus the number of boundary edges between them (corrected by what is still on the front); so after complete meshing two adjacent triangles whose common side belongs to no third triangle share exactly one interior mesh edge, and a side of a single triangle is a boundary edge.", "quantifier": "all runs", "why_tests_cant": "needs all histories", "anchors": ["src/algorithm/FrontUpdate.h: advance_front", "src/algorithm/Mesh.h: add_interior_edge"]}
{"id": "C38", "title": "The best candidate triangle is chosen", "statement": "choose_best_triangle returns a valid candidate of maximal quality if there is one, removes all other candidates from the mesh, and returns null iff no candidate is valid.", "quantifier": "all candidate lists", "why_tests_cant": "all candidate sets", "anchors": ["src/algorithm/FrontUpdate.h: choose_best_triangle, create_possible_triangles"]}
{"id": "C39", "title": "A failed front update leaves the mesh unchanged", "statement": "If update_front returns null the sets of triangles, vertices and front edges are unchanged.", "quantifier": "all states and base edges", "why_tests_cant": "all states", "anchors": ["src/algorithm/FrontUpdate.h: update_front, update_front_exhaustive, remove_from_mesh_if_invalid"]}
{"id": "C40", "title": "on_front marks exactly the vertices of front edges", "statement": "After every advance step the three vertices of the new triangle carry on_front iff they still have a front edge.", "quantifier": "all states", "why_tests_cant": "all states", "anchors": ["src/algorithm/FrontUpdate.h: update_front_state", "src/algorithm/Vertex.h: on_front"]}
{"id": "C41", "title": "Element limit is respected", "statement": "With n_elements(n), n > 0, generate_elements creates at most n triangles in total over the advancing loop and the exhaustive fallback, and returns true as soon as n are created.", "quantifier": "all runs (all outcomes of individual steps), all n", "why_tests_cant": "loop control over all outcomes of geometric tests", "anchors": ["src/algorithm/Triangulation.h: advancing_front_loop, exhaustive_search_loop, generate_elements"]}
{"id": "C42", "title": "Meshing loops visit every front edge before giving up", "statement": "The advancing loop returns false only after a full pass over all current front edges failed in wide-search mode; while no element is generated it stops after at most two passes.", "quantifier": "all fronts, all outcomes", "why_tests_cant": "loop control over all outcomes", "anchors": ["src/algorithm/Triangulation.h: advancing_front_loop", "src/algorithm/Front.h: set_base_first, set_base_next"]}
{"id": "C43", "title": "Meshing can be resumed", "statement": "The front stored at the end of one meshing step (boundary edges without facet and interior edges lacking a facet) is the front a following step starts from.", "quantifier": "all meshes and remaining fronts without duplicate undirected edges", "why_tests_cant": "all intermediate states", "anchors": ["src/algorithm/MeshingStrategy.h: add_remaining_front_edges_to_mesh, remove_invalid_mesh_edges, init_advancing_front", "src/algorithm/Mesh.h: get_front_edges", "src/algorithm/Front.h: init_front(mesh)"]}
{"id": "C44", "title": "A quad layer covers the requested boundary section", "statement": "The base edges of a quad layer are exactly the front edges from the start edge to the end edge in front order, each once. (False when start and end edge coincide: the whole loop is taken and the edge is taken twice.)", "quantifier": "all closed fronts, all start/end edges", "why_tests_cant": "all loops and positions", "anchors": ["src/algorithm/QuadLayering.h: QuadLayerVertices::QuadLayerVertices, add_quadlayer_edge", "src/algorithm/Edge.h: get_next_edge"]}
{"id": "C45", "title": "Quad layer heights are bounded", "statement": "All projected heights are positive and never exceed the requested layer height, before and after height smoothing; before smoothing they never exceed the length of their base edge, after smoothing those away from the ends never exceed the local size; layer i is requested with height first_height*growth_rate^i.", "quantifier": "all layers, all size functions", "why_tests_cant": "all real inputs", "anchors": ["src/algorithm/QuadLayering.h: add_quadlayer_edge, smooth_heights, generate_elements"]}
{"id": "C46", "title": "The next quad layer starts on the front", "statement": "find_next_layer_endings reports success only with vertices that are on the front. (False: the last inspected vertex is used even when it is not on the front.)", "quantifier": "all layers", "why_tests_cant": "needs layers whose projected vertices have all left the front", "anchors": ["src/algorithm/QuadLayering.h: find_next_layer_endings"]}
{"id": "C47", "title": "Mesh indices are a bijection", "statement": "assign_mesh_indices numbers the vertices 0..n-1 in list order and the elements 0..m-1, quads first; every connectivity entry of an exported mesh is in range.", "quantifier": "all meshes", "why_tests_cant": "all meshes", "anchors": ["src/algorithm/MeshCleanup.h: assign_mesh_indices", "src/algorithm/MeshWriter.h: write_to_vtu"]}
{"id": "C48", "title": "Facet connectivity is symmetric", "statement": "After setup_facet_connectivity the neighbour relation is symmetric and two facets are neighbours across an interior edge iff both contain it; the left facet of an edge traverses it in its direction.", "quantifier": "all meshes in which an edge belongs to at most two facets with opposite directions", "why_tests_cant": "all meshes", "anchors": ["src/algorithm/MeshCleanup.h: setup_facet_connectivity", "src/algorithm/Triangle.h: get_edge_index", "src/algorithm/Quad.h: get_edge_index"]}
{"id": "C49", "title": "Edge index of a facet", "statement": "For triangles and quads get_edge_index(v1,v2) returns the local index opposite to / following the documented convention for either direction of every edge and -1 for non-edges; index and edge are in bijection.", "quantifier": "all facets with distinct vertices", "why_tests_cant": "exhaustive over positions, all vertex identities", "anchors": ["src/algorithm/Triangle.h: get_edge_index, get_vertex_index", "src/algorithm/Quad.h: get_edge_index, get_vertex_index"]}
{"id": "C50", "title": "Double-edge cleanup inspects every quad", "statement": "clear_double_quad_edges examines each quad that has not been scheduled for removal. (False: after the first scheduled quad all later quads are skipped.)", "quantifier": "all quad lists and adjacency relations", "why_tests_cant": "needs two separate defects in one mesh", "anchors": ["src/algorithm/MeshCleanup.h: clear_double_quad_edges, clear_double_triangle_edges"]}
{"id": "C51", "title": "Merging triangles to quads preserves the mesh", "statement": "Tri2QuadModification (merging step) conserves triangles + 2*quads, removes exactly one interior edge per merge, conserves total area, produces counter-clockwise quads from counter-clockwise triangle pairs and keeps the boundary edges.", "quantifier": "all meshes, all merge orders", "why_tests_cant": "all meshes", "anchors": ["src/algorithm/ModificationStrategy.h: merge_triangles_to_quads, collect_triangle_edges", "src/algorithm/MeshCleanup.h: merge_triangles_to_quads"]}
{"id": "C52", "title": "Removing degree-3 vertices preserves area", "statement": "merge_degenerate_triangles replaces the three triangles around an interior non-fixed vertex by one triangle of the same total area with counter-clockwise orientation.", "quantifier": "all such vertex stars", "why_tests_cant": "all geometries", "anchors": ["src/algorithm/MeshCleanup.h: merge_degenerate_triangles"]}
{"id": "C53", "title": "Mesh merge counts", "statement": "A successful merge adds all donor elements, adds the donor vertices that are not on the interface, turns each interface edge pair into one interior edge: triangles r+d, quads r+d, vertices r+d-|interface vertices|, boundary edges r+d-2k, interior edges r+d+k; element colours are kept; an unsuccessful merge copies nothing.", "quantifier": "all pairs of meshes and interface relations", "why_tests_cant": "all meshes", "anchors": ["src/algorithm/MeshMerger.h: merge, copy_donor_*, convert_boundary_interface_edges"]}
{"id": "C54", "title": "Merged elements keep their geometry", "statement": "Every copied element/edge refers to receiver vertices with the same coordinates as in the donor (interface vertices identified).", "quantifier": "all meshes", "why_tests_cant": "all meshes", "anchors": ["src/algorithm/MeshMerger.h: collect_interface_boundary_vertices, copy_donor_vertices, copy_donor_quads, copy_donor_triangles"]}
{"id": "C55", "title": "Mesh::area() after a merge", "statement": "After merging, Mesh::area() of the receiver equals the sum of both areas. (False: the stored area is not updated.)", "quantifier": "all merges", "why_tests_cant": "no test reads area() after a merge", "anchors": ["src/algorithm/MeshMerger.h: merge", "src/algorithm/Mesh.h: area"]}
{"id": "C56", "title": "Quad refinement counts and Euler characteristic", "statement": "refine() yields an all-quad mesh: 0 triangles, 3T+4Q quads, V+Ei+Eb+T+Q vertices, 2Ei+3T+4Q interior and 2Eb boundary edges; V-E+F is unchanged; new quads inherit the element colour and new boundary edges the marker; meshes with interface edges are refused unchanged.", "quantifier": "all meshes, any number of refinements", "why_tests_cant": "all meshes", "anchors": ["src/algorithm/RefinementStrategy.h: QuadRefinement::refine, refine_*"]}
{"id": "C57", "title": "Quad refinement preserves area and orientation", "statement": "The sub quads of an element have the same total signed area; sub quads of a counter-clockwise triangle are convex counter-clockwise with equal areas; sub quads of a strictly convex quad are counter-clockwise.", "quantifier": "all elements", "why_tests_cant": "unbounded coordinate space", "anchors": ["src/algorithm/RefinementStrategy.h: refine_triangles, refine_quads", "src/algorithm/Quad.h: update_metrics"]}
{"id": "C58", "title": "Smoothing never moves fixed and boundary vertices", "statement": "No number of smoothing iterations (Laplace, torsion, mixed) moves a vertex flagged is_fixed or on_boundary, nor, without quad-layer smoothing, one flagged in_quad_layer; any vertex that moved is inside the domain.", "quantifier": "all meshes, all iteration counts, all displacement rules", "why_tests_cant": "unbounded iteration", "anchors": ["src/algorithm/SmoothingStrategy.h: smoothing_iteration, smoothing_loop"]}
{"id": "C59", "title": "Smoothing keeps triangles counter-clockwise", "statement": "If all triangles are counter-clockwise before smoothing they are afterwards.", "quantifier": "all meshes, all iteration counts, all displacement rules", "why_tests_cant": "invariant over unbounded iteration", "anchors": ["src/algorithm/SmoothingStrategy.h: smoothing_iteration, new_vertex_position_is_valid"]}
{"id": "C60", "title": "Smoothing keeps quads convex", "statement": "If all quads are convex before smoothing they are afterwards. (False: only two of the four corners are checked.)", "quantifier": "all meshes", "why_tests_cant": "needs specific displacement", "anchors": ["src/algorithm/SmoothingStrategy.h: new_vertex_position_is_valid"]}
{"id": "C61", "title": "Quad layer smoothing preserves layer heights", "statement": "With quad_layer_smoothing enabled the displacement of a layer vertex has no component towards the nearest boundary. (False: the stored directions are always zero because they are appended behind the preallocated entries.)", "quantifier": "all meshes", "why_tests_cant": "smoothing still looks plausible", "anchors": ["src/algorithm/SmoothingStrategy.h: collect_dispalcement_directions, smoothing_iteration"]}
{"id": "C62", "title": "Smoothing iterations compose", "statement": "smooth(a) followed by smooth(b) on the same object uses the same relaxation factors as smooth(a+b); Laplace and torsion factors alternate in sign with ratio -decay, mixed factors have ratio decay.", "quantifier": "all a, b, decay", "why_tests_cant": "all counts", "anchors": ["src/algorithm/SmoothingStrategy.h: smoothing_loop, MixedSmoothing::smooth"]}
{"id": "C63", "title": "Mesh/domain registry", "statement": "After any history of new_mesh and successful merges, get_domain(mesh) is the domain the mesh was created for, is_valid(mesh) holds exactly for live meshes and mesh(i) terminates for i >= size().", "quantifier": "all histories", "why_tests_cant": "all histories", "anchors": ["src/algorithm/MeshBuilder.h: add_mesh_and_domain, remove_mesh_and_domain, get_domain", "src/algorithm/MeshGenerator.h: new_mesh, merge_meshes, is_valid, mesh"]}
{"id": "C64", "title": "merge_meshes reports whether the meshes were merged", "statement": "merge_meshes returns true iff the donor was merged into the receiver and removed. (False: it returns true when the meshes share no interface.)", "quantifier": "all generators", "why_tests_cant": "tests merge only adjacent meshes", "anchors": ["src/algorithm/MeshGenerator.h: merge_meshes"]}
{"id": "C65", "title": "Algorithm accessors return an algorithm for the requested mesh", "statement": "triangulation(mesh), quad_layer_generation(mesh), ... always return an algorithm object of the requested kind operating on the requested mesh, whatever was requested before; the object (with the user's settings) is kept iff the last request to the same group of accessors was for the same algorithm and the same mesh.", "quantifier": "all call sequences on live meshes", "why_tests_cant": "all call sequences", "anchors": ["src/algorithm/MeshGenerator.h: triangulation, quad_layer_generation, set_algorithm"]}
{"id": "C66", "title": "VTU export is decodable", "statement": "From the exported connectivity, offsets and types every element can be recovered with its vertices in order, quads first; offsets are strictly increasing and end at the connectivity length; all arrays have one entry per cell/point.", "quantifier": "all meshes", "why_tests_cant": "all meshes", "anchors": ["src/algorithm/MeshWriter.h: write_to_vtu", "src/utils/VtkIO.h: VtuWriter::write"]}
{"id": "C67", "title": "VTU rows are complete", "statement": "The ten-per-line layout of the VTU writer prints every array entry exactly once in order.", "quantifier": "all array lengths", "why_tests_cant": "all lengths modulo ten", "anchors": ["src/utils/VtkIO.h: write_points, write_connectivity, write_offsets, write_types, VtkIOData::write_data"]}
{"id": "C68", "title": "Distinct vertices stay distinct in the VTU file", "statement": "Two vertices with different coordinates are written differently. (False: five decimals.)", "quantifier": "all coordinates", "why_tests_cant": "tests do not read files back", "anchors": ["src/utils/VtkIO.h: write_points"]}
{"id": "C69", "title": "Output file extension", "statement": "The exported file name ends with the dot-extension of the format; a name that already has it is kept. (The name \"txt\"/\"vtu\" itself is not extended.)", "quantifier": "all file names", "why_tests_cant": "all strings", "anchors": ["src/algorithm/MeshWriter.h: write_to_txt, write_to_vtu"]}
{"id": "C70", "title": "Repeated queries enumerate all definitions", "statement": "Calling query repeatedly for a key yields the lines containing the key in order, each exactly once, and then fails; nothing outside the mesh block is reported.", "quantifier": "all files, all keys", "why_tests_cant": "all inputs", "anchors": ["src/utils/ParaReader.h: get_query_data, query"]}
{"id": "C71", "title": "Mesh blocks are disjoint and in order", "statement": "Repeated block queries return the Define/End blocks of the file in order without overlap and stop.", "quantifier": "all files", "why_tests_cant": "all inputs", "anchors": ["src/utils/ParaReader.h: ParaBlock::query"]}
{"id": "C72", "title": "Matrix parameters are read row by row", "statement": "If every line of a matrix definition has at most n entries, then with defaults enabled get_value(i,j) is the i-th entry of line j or the default; rows() is the number of lines (at least one line).", "quantifier": "all matrices", "why_tests_cant": "all inputs", "anchors": ["src/utils/ParaReader.h: query_matrix, process_matrix_query, Parameter::get_value"]}
{"id": "C73", "title": "An empty matrix definition has no rows", "statement": "Reading a matrix definition without lines yields no rows. (False: it yields one row of zeros or of the previous definition.)", "quantifier": "all parameter states", "why_tests_cant": "needs an empty definition", "anchors": ["src/utils/ParaReader.h: query_matrix, Parameter::resize"]}
{"id": "C74", "title": "Boundary vertex indices are validated", "statement": "Every vertex index accepted by the application for exterior/interior boundary edges and fixed edges refers to an existing vertex. (False for exterior edges: index n is accepted.)", "quantifier": "all indices", "why_tests_cant": "off by one", "anchors": ["src/app/TQMeshApp.h: init_exterior_boundary, init_interior_boundaries, init_fixed_edges"]}
{"id": "C75", "title": "Vector arithmetic", "statement": "VecND operations are the component-wise vector space operations; == holds iff the vectors are equal (exact arithmetic); sum() is the sum of the entries. (sum() is false for non-integral entries: it accumulates in int.)", "quantifier": "all vectors", "why_tests_cant": "unbounded", "anchors": ["src/utils/VecND.h: operator+, -, *, /, ==, sum, dot, cross"]}
{"id": "C76", "title": "Matrix swap exchanges the matrices", "statement": "After a.swap(b) a equals the old b and b equals the old a. (False: the dimensions of b are not exchanged.)", "quantifier": "all matrices", "why_tests_cant": "needs different shapes", "anchors": ["src/utils/Matrix.h: swap"]}
{"id": "C77", "title": "String splitting round trip", "statement": "Splitting a string at a delimiter and joining the parts gives the string back up to a trailing delimiter; no part contains the delimiter.", "quantifier": "all strings", "why_tests_cant": "all strings", "anchors": ["src/utils/StringOps.h: split"]}
{"id": "C78", "title": "CSV boundary reading", "statement": "Every data line yields one coordinate, marker and property in file order; malformed lines are reported with their line number and never yield partial data.", "quantifier": "all files", "why_tests_cant": "all inputs", "anchors": ["src/algorithm/Boundary.h: CSVBoundaryReader"]}
{"id": "C79", "title": "Adding and removing mesh elements is exact", "statement": "add_vertex/add_triangle/add_quad/add_*_edge and the remove functions change exactly the addressed list, counts follow, and a remove of an edge belonging to another list is refused.", "quantifier": "all histories", "why_tests_cant": "all histories", "anchors": ["src/algorithm/Mesh.h: add_*, remove_*, n_*"]}
{"id": "C80", "title": "Circumcentre is equidistant", "statement": "For a non-degenerate triangle the computed circumcentre has the same distance to all three corners; the quad area is the sum of its triangle areas.", "quantifier": "all triangles/quads", "why_tests_cant": "unbounded", "anchors": ["src/algorithm/FacetGeometry.h: calc_circumcenter, calc_area"]}
{"id": "C81", "title": "A failed mesh preparation leaves the mesh as it was", "statement": "When prepare_mesh returns false, no mesh has changed; it returns false exactly if the mesh is not empty or the domain check fails. (The branch for an invalid front is dead; its clean-up loop removes list nodes while iterating over the list, which is undefined behaviour with at least one vertex.)", "quantifier": "all preparations", "why_tests_cant": "all domains; the clean-up branch cannot be reached by a test", "anchors": ["src/algorithm/MeshBuilder.h: prepare_mesh", "src/utils/Container.h: remove"]}
{"id": "C82", "title": "Vertices, edges and facets know each other", "statement": "After any history of edge/facet creation and removal, the edge list of a vertex contains exactly the live edges having it as an end point and its facet list exactly the live facets having it as corner.", "quantifier": "all histories", "why_tests_cant": "all histories", "anchors": ["src/algorithm/Vertex.h: add_edge, remove_edge, add_facet, remove_facet", "src/algorithm/Edge.h: Edge, container_destructor", "src/algorithm/Triangle.h: container_destructor", "src/algorithm/Quad.h: container_destructor"]}
{"id": "C83", "title": "Boundary::add_edge keeps the chain connected", "statement": "After any sequence of Boundary::add_edge calls that do not throw, consecutive edges of the boundary share a vertex. (False: Boundary::add_edge hides EdgeList::add_edge and appends without the connectivity check.)", "quantifier": "all sequences of add_edge calls", "why_tests_cant": "tests only add connected edges", "anchors": ["src/algorithm/Boundary.h: add_edge, insert_edge", "src/algorithm/EdgeList.h: add_edge"]}
{"id": "C84", "title": "Overlapping edges of neighbouring domains are counted exactly", "statement": "count_edge_overlaps returns the number of pairs of boundary edges of the two domains that have the same two end points (in either direction); the radius of the spatial search never hides such a pair.", "quantifier": "all pairs of domains", "why_tests_cant": "depends on the radius of a spatial query for all edge lengths", "anchors": ["src/algorithm/Domain.h: count_edge_overlaps, get_boundary_edges"]}
{"id": "C85", "title": "Neighbour edges of a boundary edge are found completely", "statement": "get_neighbor_mesh_edges returns exactly the boundary edges of the neighbour meshes with both end points on the segment, each once and sorted by distance from the starting vertex; the radius of the spatial query (1.5 edge lengths) never hides one.", "quantifier": "all edges of length at least (eps/2)^(1/4), all neighbour meshes", "why_tests_cant": "interaction of a tolerance, a search radius and a sort", "anchors": ["src/algorithm/FrontInitData.h: get_neighbor_mesh_edges", "src/algorithm/Mesh.h: get_bdry_edges"]}
{"id": "C86", "title": "Front area equals the domain area", "statement": "The area attached to a freshly initialised advancing front (Front::area over its directed edges) is the sum of the signed areas of the domain's boundary polygons: exterior minus holes; neighbour-mesh edges, fixed edges and the refinement change nothing.", "quantifier": "all domains with closed boundaries, all neighbour meshes, all size functions for which refinement succeeds", "why_tests_cant": "a sum over an unbounded edge set, invariant under subdivision", "anchors": ["src/algorithm/Front.h: init_front, compute_area, refine_edge"]}
{"id": "C87", "title": "Only boundary vertices carry the on_boundary flag", "statement": "After Front::init_front a mesh vertex is flagged on_boundary iff it is a vertex of a domain boundary or of a neighbour mesh boundary. (False: end points of fixed interior edges are flagged as well.)", "quantifier": "all domains", "why_tests_cant": "flag of a vertex that is only on a fixed interior edge", "anchors": ["src/algorithm/Front.h: init_front"]}
{"id": "C88", "title": "Moved front data stays usable", "statement": "Moving a FrontInitData object yields an object that initialises the same front. (False: the move constructor and move assignment drop vertices_ and vertex_ids_, and init_front then reads out of bounds.)", "quantifier": "all non-empty front data", "why_tests_cant": "no test moves the object", "anchors": ["src/algorithm/FrontInitData.h: move constructor, move assignment", "src/algorithm/Front.h: init_front"]}
{"id": "C89", "title": "Matrix entries are addressed uniquely and survive resizing", "statement": "Every index pair in range addresses its own entry of a matrix; resize(r,c) yields an r x c matrix in which every old entry still in range keeps its value and place, new entries are zero. (False when the number of columns changes.)", "quantifier": "all matrices and dimensions", "why_tests_cant": "all dimensions", "anchors": ["src/utils/Matrix.h: operator[], resize"]}
{"id": "C90", "title": "The triangles tile the domain", "statement": "At every time, for every point not on a line through a triangle side, the number of triangles around the point plus the winding number of the remaining front equals the winding number of the initial front; when the front is used up, every such point of the domain lies in exactly one triangle and none outside is covered.", "quantifier": "all histories in which side edges run against the new triangles, all points in general position", "why_tests_cant": "infinitely many points and histories", "anchors": ["src/algorithm/FrontUpdate.h: advance_front, update_front, update_front_exhaustive"]}
{"id": "C91", "title": "No vertex in a new triangle", "statement": "A triangle accepted by the front update contains no mesh vertex other than its corners, neither inside nor on its sides; the search radius of the check is large enough.", "quantifier": "all meshes, all size functions", "why_tests_cant": "interaction of the search radius with arbitrary point sets", "anchors": ["src/algorithm/FrontUpdate.h: triangle_is_valid", "src/algorithm/FacetGeometry.h: check_intersection"]}
{"id": "C92", "title": "The shape factor is normalised", "statement": "The shape factor lies in (0,1] for valid triangles and is 1 for equilateral ones, as documented. (False: the normalisation constant is half of what is needed, every equilateral triangle gets 1/2, the maximum; a min_cell_quality above 1/2 rejects every triangle.)", "quantifier": "all triangles", "why_tests_cant": "unbounded; an inequality", "anchors": ["src/algorithm/FacetGeometry.h: calc_shape_factor, calc_quality", "src/algorithm/FrontUpdate.h: triangle_is_valid"]}
{"id": "C93", "title": "A full narrow pass precedes the wide search", "statement": "Before the advancing front loop switches on the wide search, every current front edge has been tried with the narrow search. (False for the first pass: the loop starts with the edge that was first before sorting, and skips the first edge of the sorted front.)", "quantifier": "all fronts, all outcomes of the attempts", "why_tests_cant": "depends on the order of the front and on a base pointer set before sorting", "anchors": ["src/algorithm/MeshingStrategy.h: init_advancing_front", "src/algorithm/Triangulation.h: advancing_front_loop", "src/algorithm/Front.h: set_base_first, set_base_next, sort_edges"]}
{"id": "C94", "title": "Meshing a complete mesh is harmless", "statement": "generate_elements on a mesh without remaining front edges returns and leaves the mesh as it is. (False: the null base edge is dereferenced, in debug builds an assertion fails.)", "quantifier": "all complete meshes", "why_tests_cant": "a second call on a finished mesh is not tested", "anchors": ["src/algorithm/MeshingStrategy.h: init_advancing_front", "src/algorithm/Triangulation.h: advancing_front_loop, generate_elements"]}
{"id": "C95", "title": "The exhaustive search is exhaustive", "statement": "exhaustive_search_triangle tries every vertex of the front as third corner before it gives up on a base edge. (False: only the vertices on the loop of the base edge are tried, so a ring-shaped gap is never closed.)", "quantifier": "all fronts, all base edges", "why_tests_cant": "depends on the number of front loops", "anchors": ["src/algorithm/Triangulation.h: exhaustive_search_triangle, exhaustive_search_loop"]}
{"id": "C96", "title": "check_mesh_validity detects open edges", "statement": "check_mesh_validity returns true only for meshes in which every interior edge has elements on both sides and every boundary edge has one. (False: one element per edge suffices; a mesh with an unmeshed hole passes and is then cleaned up as if it were complete.)", "quantifier": "all meshes", "why_tests_cant": "needs incomplete meshes whose boundary is covered", "anchors": ["src/algorithm/EntityChecks.h: check_mesh_validity", "src/algorithm/Triangulation.h: generate_elements"]}
{"id": "C97", "title": "Fixed vertices survive the clean-up", "statement": "No clean-up function removes a vertex marked as fixed. (False: the double-edge functions remove the middle vertex without looking at the flag; merge_degenerate_triangles respects it.)", "quantifier": "all meshes", "why_tests_cant": "needs a fixed vertex at a double edge", "anchors": ["src/algorithm/MeshCleanup.h: clear_double_quad_edges, clear_double_triangle_edges, merge_degenerate_triangles"]}
{"id": "C98", "title": "Clean-up and merging keep element colours", "statement": "An element that replaces others of one colour gets that colour. (False: the double-edge functions and MeshCleanup::merge_triangles_to_quads use the colour of the mesh, Tri2Quad merges triangles of different colours; merge_degenerate_triangles keeps the colour.)", "quantifier": "all meshes, all colours", "why_tests_cant": "colours are not compared in tests", "anchors": ["src/algorithm/MeshCleanup.h: clear_double_quad_edges, merge_degenerate_triangles, merge_triangles_to_quads", "src/algorithm/ModificationStrategy.h: merge_triangles_to_quads"]}
{"id": "C99", "title": "Facet pointers refer to elements of the mesh", "statement": "After setup_facet_connectivity every facet pointer of an interior edge is null or refers to an element of the mesh. (False: the function never resets a pointer, those to removed elements stay.)", "quantifier": "all meshes, all histories of removals", "why_tests_cant": "dangling pointers go unnoticed until dereferenced", "anchors": ["src/algorithm/MeshCleanup.h: setup_facet_connectivity", "src/algorithm/Mesh.h: remove_triangle, get_front_edges"]}
{"id": "C100", "title": "Elements made by the clean-up take part in intersection tests", "statement": "Elements created by clean-up functions are active if the elements they replace were, so that later steps test against them. (False for merge_degenerate_triangles.)", "quantifier": "all meshes", "why_tests_cant": "needs a further meshing step next to a cleaned-up vertex", "anchors": ["src/algorithm/MeshCleanup.h: merge_degenerate_triangles", "src/algorithm/FacetGeometry.h: check_intersection", "src/algorithm/Triangle.h: is_active"]}
{"id": "C101", "title": "Merged quads are convex", "statement": "Every quad made from two counter-clockwise triangles by the merging step is convex. (False: only the angles opposite to the removed edge are.)", "quantifier": "all meshes, all merge orders", "why_tests_cant": "depends on all shapes of triangle pairs", "anchors": ["src/algorithm/ModificationStrategy.h: merge_triangles_to_quads"]}
{"id": "C102", "title": "Refinement leaves free vertices movable", "statement": "A vertex made by the refinement is fixed only if all vertices it is interpolated from are fixed, so that a single fixed vertex does not freeze its neighbourhood. (False: one fixed end or corner is enough.)", "quantifier": "all meshes without interfaces", "why_tests_cant": "depends on the flags of all vertices and the mesh topology", "anchors": ["src/algorithm/RefinementStrategy.h: split_edge, split_triangle, split_quad"]}
{"id": "C103", "title": "The merged mesh is conforming", "statement": "Merging two conforming meshes whose common edges are twins gives a conforming mesh: consistent incidences, no two edges on the same vertices, interior edges between two elements, boundary edges with one element on the left; convex elements stay convex.", "quantifier": "all pairs of conforming meshes with a common interface", "why_tests_cant": "a global invariant over all meshes and interfaces", "anchors": ["src/algorithm/MeshMerger.h: merge"]}
{"id": "C104", "title": "Vertex flags after a merge", "statement": "If in both meshes exactly the ends of boundary edges have the boundary flag, this holds for the merged mesh; interface vertices are fixed.", "quantifier": "all pairs of meshes, all interfaces", "why_tests_cant": "depends on where the interface meets the outer boundary", "anchors": ["src/algorithm/MeshMerger.h: merge, collect_interface_boundary_vertices"]}
{"id": "C105", "title": "Interfaces to other meshes survive a merge", "statement": "If twin edges are mutual in all meshes, then after a merge no edge of a remaining mesh has its twin in the donor, and twins are again mutual.", "quantifier": "all collections of meshes", "why_tests_cant": "needs three meshes and their twin relation", "anchors": ["src/algorithm/MeshMerger.h: copy_donor_boundary_edges"]}
{"id": "C106", "title": "Unmeshed meshes are not merged", "statement": "A merge in which one of the meshes has no elements is refused. (False: an unmeshed donor is refused, an unmeshed receiver is not; the interface then remains as a pair of boundary edges inside the merged mesh and success is reported.)", "quantifier": "all pairs of meshes", "why_tests_cant": "tests merge complete meshes", "anchors": ["src/algorithm/MeshMerger.h: merge, copy_donor_boundary_edges, convert_boundary_interface_edges"]}
{"id": "C107", "title": "The area of a mesh is the shoelace sum of its boundary", "statement": "Twice the sum of the element areas of a conforming mesh equals the sum of the cross products along its boundary edges; meshes with the same boundary have the same area.", "quantifier": "all conforming meshes", "why_tests_cant": "a global cancellation over all elements", "anchors": ["src/algorithm/Mesh.h: area", "src/algorithm/FacetGeometry.h: calc_area"]}
{"id": "C108", "title": "Smoothing conserves the area", "statement": "Smoothing a conforming mesh whose boundary vertices are flagged leaves a conforming mesh of the same total area, for every displacement rule and number of iterations.", "quantifier": "all conforming meshes, all iteration counts, all displacement rules", "why_tests_cant": "invariant over unbounded iteration", "anchors": ["src/algorithm/SmoothingStrategy.h: smoothing_iteration, smoothing_loop"]}
{"id": "C109", "title": "Laplace smoothing aims at the mean of the neighbours", "statement": "The Laplace displacement of an interior vertex points to the mean of its neighbours. (False next to quads: vertices connected by an edge count twice, vertices across a quad once; true with triangles only.)", "quantifier": "all meshes and vertices", "why_tests_cant": "the result looks plausible", "anchors": ["src/algorithm/SmoothingStrategy.h: init_vertex_connectivity, LaplaceSmoothing::compute_displacement"]}
{"id": "C110", "title": "Laplace iterations bring vertices closer to their target", "statement": "After every iteration a vertex is at most as far from its target as before. (False: the sign of the factor alternates, so every second iteration moves vertices away.)", "quantifier": "all meshes, all iterations", "why_tests_cant": "tests look at the final mesh only", "anchors": ["src/algorithm/SmoothingStrategy.h: smoothing_loop, smoothing_iteration"]}
{"id": "C111", "title": "Torsion smoothing rests at equal angles", "statement": "A vertex whose neighbours lie at equal angles around it is not moved by torsion smoothing. (False: every neighbour is listed once per element, so the angle to one of its own copies is zero and the rotations do not cancel.)", "quantifier": "all stars with equal angles", "why_tests_cant": "needs exact angles", "anchors": ["src/algorithm/SmoothingStrategy.h: init_vertex_connectivity, TorsionSmoothing::compute_displacement"]}
{"id": "C112", "title": "Accessors refuse meshes that are not registered", "statement": "An algorithm accessor called with a mesh that is not (or no longer) registered terminates the program. (False: if the last request of the group was for that mesh, the old object with its dangling reference is returned.)", "quantifier": "all call sequences", "why_tests_cant": "needs a use after a merge", "anchors": ["src/algorithm/MeshGenerator.h: triangulation, quad_layer_generation, set_algorithm, merge_meshes"]}
{"id": "C113", "title": "Algorithms refer to the domain of their mesh", "statement": "The algorithm returned for a valid mesh refers to the domain that was given when the mesh was created. (False if a new mesh is created in the memory of a destroyed one: the old object with the old domain is returned.)", "quantifier": "all call sequences", "why_tests_cant": "depends on the allocator", "anchors": ["src/algorithm/MeshGenerator.h: triangulation, quad_layer_generation, set_algorithm, new_mesh"]}
{"id": "C114", "title": "new_mesh hands out prepared meshes only", "statement": "A mesh returned by new_mesh and valid for the generator has been prepared, i.e. holds the boundary of its domain. (False: the result of prepare_mesh is ignored.)", "quantifier": "all domains", "why_tests_cant": "tests use valid domains", "anchors": ["src/algorithm/MeshGenerator.h: new_mesh", "src/algorithm/MeshBuilder.h: prepare_mesh"]}
{"id": "C115", "title": "A prepared mesh is the subdivided boundary of its domain", "statement": "After prepare_mesh: consistent pointers, no elements, no interior edges, the boundary edges form closed loops that enclose the area of the domain, all their vertices are flagged as boundary vertices, other meshes differ by twin pointers only; the vertices are those of the initial front plus the isolated fixed vertices.", "quantifier": "all domains with closed boundaries, all size functions, all neighbour meshes", "why_tests_cant": "all domains", "anchors": ["src/algorithm/MeshBuilder.h: prepare_mesh", "src/algorithm/Front.h: init_front", "src/algorithm/FrontInitData.h: collect_front_edges"]}
{"id": "C116", "title": "Fixed edges of the domain are edges of the mesh", "statement": "Every fixed edge of the domain is (after subdivision) a chain of edges of the mesh. (False: prepare_mesh does not store fixed edges, only their vertices; a fixed diagonal of a square can be replaced by the other diagonal.)", "quantifier": "all domains with fixed edges", "why_tests_cant": "the unit test checks only that the mesh is complete", "anchors": ["src/algorithm/MeshBuilder.h: prepare_mesh", "src/algorithm/Front.h: init_front", "README.md: fixed edges"]}
{"id": "C117", "title": "The triangulation tiles the domain", "statement": "If the mesh of a domain is prepared and triangulated until the front is empty, the mesh area is the area of the domain, the boundary of the triangulation is the subdivided boundary of the domain and every point is covered as often as the boundary winds around it.", "quantifier": "all domains, all size functions, all runs", "why_tests_cant": "connects all stages; all domains", "anchors": ["src/algorithm/MeshBuilder.h: prepare_mesh", "src/algorithm/TriangulationStrategy.h: generate_elements", "src/algorithm/FrontUpdate.h: update_front"]}
{"id": "C118", "title": "The end of a quad layer is put on the neighbouring edge", "statement": "At the two ends of an open layer the projected vertex is put on the neighbouring front edge: it is the foot of the projected coordinate on that edge (by moving the neighbour vertex or by splitting the edge strictly between its ends), or the neighbour vertex itself; a split never fails for its factor when the edge is left of the base edge.", "quantifier": "all front edges, heights and directions", "why_tests_cant": "three scenarios with real inputs", "anchors": ["src/algorithm/QuadLayering.h: place_start_vertex, place_end_vertex", "src/algorithm/EdgeList.h: split_edge"]}
{"id": "C119", "title": "Quad layers conserve what the front encloses", "statement": "Quad layers take from the region enclosed by the front what they add to the mesh: element area plus enclosed area stays the same, the area counter follows, and every point is covered by the elements and enclosed by the front as often as before. (False: the layer may move vertices of the neighbouring front edges, which changes the enclosed area. True if nothing is moved.)", "quantifier": "all layers on all meshes", "why_tests_cant": "all geometries, whole runs", "anchors": ["src/algorithm/QuadLayering.h: create_quad_layer, finish_quad_layer, close_quad_layer_gap, create_quad_layer_element"]}
{"id": "C120", "title": "Quad layers keep the vertices of the mesh", "statement": "The mesh stays consistent and every vertex that was in the mesh (in particular on the domain boundary) keeps its place. (False: the neighbour vertices of the ends are moved.)", "quantifier": "all layers on all meshes", "why_tests_cant": "all geometries", "anchors": ["src/algorithm/QuadLayering.h: place_start_vertex, place_end_vertex"]}
{"id": "C121", "title": "Elements of quad layers are proper", "statement": "All elements made by quad layers have positive area and the quads are convex. (False for convexity: a quad may have a reflex corner.)", "quantifier": "all layers on all meshes", "why_tests_cant": "all geometries", "anchors": ["src/algorithm/QuadLayering.h: create_quad_layer_element, close_quad_layer_gap"]}
{"id": "C122", "title": "Quad layers leave no hanging nodes", "statement": "When a layer splits an edge, everything that uses the edge is split with it; no vertex lies within a side of an element. (False: the side of an element of an earlier layer is not split.)", "quantifier": "all sequences of layers", "why_tests_cant": "needs layers that meet", "anchors": ["src/algorithm/QuadLayering.h: place_start_vertex, place_end_vertex", "src/algorithm/EdgeList.h: split_edge"]}
{"id": "C123", "title": "Quad layers are not higher than their base edges", "statement": "The height of every projected base edge is at most the length of the edge. (False after height smoothing.)", "quantifier": "all layers", "why_tests_cant": "all real inputs", "anchors": ["src/algorithm/QuadLayering.h: add_quadlayer_edge, smooth_heights"]}
{"id": "C124", "title": "Quad layers never dereference a null pointer", "statement": "For every mesh with a boundary, positions of the ends, height, growth rate and number of layers, generate_elements dereferences no null pointer. (False: when a layer fills the domain, the next one searches an empty front.)", "quantifier": "all meshes, all arguments", "why_tests_cant": "all geometries", "anchors": ["src/algorithm/QuadLayering.h: generate_elements, find_start_and_ending_edges", "src/algorithm/EdgeList.h: get_closest_vertex"]}
{"id": "C125", "title": "Text export is decodable", "statement": "From the exported text file every vertex, every interior, boundary and front edge, every element with its colour and its neighbours can be recovered, the coordinates up to half of the last printed decimal.", "quantifier": "all consistent meshes", "why_tests_cant": "all meshes; tests do not read files back", "anchors": ["src/algorithm/Mesh.h: operator<<", "src/algorithm/MeshWriter.h: write_to_txt"]}
{"id": "C126", "title": "Every edge is written exactly once to the text file", "statement": "The sections INTERIOREDGES, BOUNDARYEDGES and FRONT of the text file list every edge of the mesh exactly once.", "quantifier": "all consistent meshes", "why_tests_cant": "all meshes, finished or not", "anchors": ["src/algorithm/Mesh.h: get_valid_interior_edges, get_valid_boundary_edges, get_front_edges, operator<<"]}
{"id": "C127", "title": "Lines of a matrix keep their columns", "statement": "A matrix definition is accepted only if no line has more entries than the matrix has columns, so that the i-th entry of a line always gets into column i. (False: entries of one line flow into the next row.)", "quantifier": "all matrix definitions", "why_tests_cant": "needs lines of different lengths", "anchors": ["src/utils/ParaReader.h: query_matrix, process_matrix_query"]}
{"id": "C128", "title": "No definition is lost silently", "statement": "For keys that may occur several times (quad layers, interior boundaries), every line of the block with the key is processed or an error is reported. (False: a line that cannot be read ends the loop and hides all later ones.)", "quantifier": "all blocks", "why_tests_cant": "needs malformed input", "anchors": ["src/utils/ParaReader.h: query_vector", "src/app/TQMeshApp.h: init_quad_layers, init_interior_boundaries"]}
{"id": "C129", "title": "Comments do not contribute values", "statement": "Text behind a # contributes nothing to a parameter. (False inside matrix definitions.)", "quantifier": "all files", "why_tests_cant": "needs comments with commas", "anchors": ["src/utils/ParaReader.h: process_matrix_query, query_matrix"]}
{"id": "C130", "title": "Blank lines do not define rows", "statement": "A blank line inside a matrix definition is no row. (False: with default values it becomes a row of default values, for example a boundary vertex at (-1,-1).)", "quantifier": "all matrix definitions", "why_tests_cant": "needs blank lines in a definition", "anchors": ["src/utils/ParaReader.h: process_matrix_query"]}
{"id": "C131", "title": "Values out of range are not answered", "statement": "get_value(i,j) gives an answer only for i < columns() and j < rows(). (False: it answers with another entry.)", "quantifier": "all parameters, all indices", "why_tests_cant": "all indices", "anchors": ["src/utils/ParaReader.h: Parameter::get_value"]}
{"id": "C132", "title": "A scalar query reads the value behind the key", "statement": "A scalar query takes the first line with the key in the rest of the block and converts the text behind the last occurrence of the key, up to a comment and without blanks; it fails exactly if there is no such line or the text cannot be converted, and the next query continues behind this line.", "quantifier": "all files, all keys, all types of values", "why_tests_cant": "all inputs", "anchors": ["src/utils/ParaReader.h: query_scalar, get_query_data"]}
{"id": "C133", "title": "Values do not survive from one mesh to the next", "statement": "found(name) tells whether the parameter is defined in the current block. (False: it stays set from an earlier block, and get_value returns the value of that block.)", "quantifier": "all files with several blocks", "why_tests_cant": "needs several blocks", "anchors": ["src/utils/ParaReader.h: query, found, get_value"]}
{"id": "C134", "title": "Exactly the comment lines are skipped", "statement": "The content of a parameter file is its list of lines without those whose first visible character is #.", "quantifier": "all files", "why_tests_cant": "all inputs", "anchors": ["src/utils/ParaReader.h: read_content"]}
{"id": "C135", "title": "Errors name the mesh", "statement": "The error messages for missing mandatory parameters contain the number of the mesh. (False: the number is added to a pointer; characters of the message are lost, and for large numbers the behaviour is undefined.)", "quantifier": "all mesh numbers", "why_tests_cant": "message texts are not tested", "anchors": ["src/app/TQMeshApp.h: query_mandatory_parameters"]}
{"id": "C136", "title": "The search tree of a domain covers all its vertices", "statement": "The extent estimated for a domain is such that all vertices of its definition lie in the search tree. (False for fixed vertices and boundary shapes; true for the list of boundary vertices.)", "quantifier": "all definitions", "why_tests_cant": "all coordinates", "anchors": ["src/app/TQMeshApp.h: init_mesh_vertices, init_fixed_vertices, init_mesh_domain"]}
{"id": "C137", "title": "The exit status reflects all meshes", "statement": "A run processes every mesh definition of the file once, in order, and is successful exactly if every mesh was generated completely. (False for a definition without its end line: it is skipped and the run is successful.)", "quantifier": "all files", "why_tests_cant": "all inputs", "anchors": ["src/app/TQMeshApp.h: run, construct_mesh"]}
{"id": "C138", "title": "Every mesh has exactly one exterior boundary", "statement": "A mesh definition with no or with several exterior boundaries is rejected. (False: the first kind in a fixed order is used, the others are ignored; none at all is accepted.)", "quantifier": "all definitions", "why_tests_cant": "all combinations", "anchors": ["src/app/TQMeshApp.h: init_exterior_boundary"]}
{"id": "C139", "title": "Predefined shapes have the geometry asked for", "statement": "set_shape_rectangle/square/circle/triangle on an empty boundary produce the axis-parallel rectangle centred at xy with sides w and h, the square, the regular n-gon inscribed in the circle of radius r, the equilateral triangle of side a: right number of segments, right corners, one color, right side lengths and area, with the sign of the boundary type.", "quantifier": "all centres, extents (non-zero, also negative), n >= 3, colors >= 0, existing vertices, boundary types", "why_tests_cant": "infinitely many shapes; n unbounded", "anchors": ["src/algorithm/Boundary.h: set_shape_square, set_shape_triangle, set_shape_rectangle, set_shape_circle"]}
{"id": "C140", "title": "The advancing front stays simple", "statement": "If the initial front is simple (closed, edges of positive length that meet only in end points, winding once around a region and not at all around the rest), the tolerance is below the resolution of the mesh and no front edge that meets a new triangle lies outside the range of the checks (for instance because edges are at most 4/3 of the size function), then after every sequence of front updates the front is simple again, every new triangle meets the front of its time only in shared edges and corners, and its side edges are looked up in the right direction. Without the range condition the checks accept a triangle that is crossed by a long front edge.", "quantifier": "all simple fronts, all sequences of updates (successful, failed, exhaustive, reordered), all size functions", "why_tests_cant": "a topological invariant over all histories and all fronts", "anchors": ["src/algorithm/FrontUpdate.h: update_front, update_front_exhaustive, advance_front, triangle_is_valid", "src/algorithm/Triangle.h: intersects_front"]}
{"id": "C141", "title": "New triangles never overlap", "statement": "Under the conditions of C140, in every state reached while a simple front is meshed every point (on no line through a side) lies in at most one triangle; a point in a triangle belonged to the initial region and is no longer in the region bounded by the remaining front; a point of the initial region lies in a triangle or is still in the remaining region.", "quantifier": "all simple fronts, all histories, all points", "why_tests_cant": "all points of the plane, all histories", "anchors": ["src/algorithm/FrontUpdate.h: update_front, advance_front, triangle_is_valid"]}
{"id": "C142", "title": "A used-up front leaves an exact tiling", "statement": "Under the conditions of C140, when a simple front has been used up the mesh area has grown by the area it enclosed, the boundary of the triangles is the initial front, every point of the region (on no line through a side) lies in exactly one triangle and no other point lies in a triangle; before that, mesh area plus area enclosed by the front is constant.", "quantifier": "all simple fronts, all complete histories, all points", "why_tests_cant": "all regions and all points", "anchors": ["src/algorithm/FrontUpdate.h: update_front, advance_front", "src/algorithm/Triangulation.h: generate_elements"]}
{"id": "C143", "title": "Triangulation steps leave a conforming mesh", "statement": "Any number of triangulation steps on a domain with simple boundary, each one stopped anywhere and picked up by the next one: at every moment the mesh together with its front is consistent (interior edges have an element on each side, no edge exists twice, the front consists of exactly the open sides), no two triangles share an inner point, the area of the mesh plus the area enclosed by the front is the area of the domain; when the front is empty the mesh is conforming (the hypothesis of the properties of merging, refinement and smoothing). Conditions as in C140.", "quantifier": "all prepared meshes with simple boundary, all sessions of steps, all stopping points, all histories", "why_tests_cant": "an invariant over all histories and all domains", "anchors": ["src/algorithm/Triangulation.h: generate_elements", "src/algorithm/MeshingStrategy.h: add_remaining_front_edges_to_mesh, remove_invalid_mesh_edges", "src/algorithm/Front.h: init_front", "src/algorithm/FrontUpdate.h: update_front"]}
{"id": "C144", "title": "A complete triangulation passes the check", "statement": "If a session of triangulation steps on a domain with simple boundary ends with an empty front, check_completeness of MeshChecker returns true for it (area counter equal to the area of the domain, extent not degenerate); more generally every conforming mesh with the right area passes.", "quantifier": "all domains, all complete sessions, all positive thresholds", "why_tests_cant": "all meshes", "anchors": ["src/algorithm/MeshChecker.h: check_completeness", "src/algorithm/Mesh.h: get_front_edges", "src/algorithm/EntityChecks.h: check_mesh_validity"]}
{"id": "C145", "title": "Only complete meshes pass the check", "statement": "If check_completeness returns true, the elements cover the domain. (False: the difference of the areas is related to the extent of the domain, which always reaches to the origin, so the empty mesh passes for a domain far away from it; facet pointers may be stale, C99. True for meshes with all sides on edges and no stale pointers: then the mesh is conforming and its elements tile the region bounded by its boundary edges.)", "quantifier": "all meshes and domains", "why_tests_cant": "all meshes", "anchors": ["src/algorithm/MeshChecker.h: check_completeness", "src/algorithm/Domain.h: extent"]}
{"id": "C146", "title": "The stored angles of a triangle are its interior angles", "statement": "The angles stored for a counter-clockwise triangle are its interior angles in the order of its corners; each lies strictly between 0 and pi, they sum to pi; the smallest and the largest stored angle are attained and enclose pi/3.", "quantifier": "all counter-clockwise triangles with real coordinates", "why_tests_cant": "all triangles; exact trigonometry", "anchors": ["src/algorithm/FacetGeometry.h: TriangleGeometry::calc_angles", "src/algorithm/Triangle.h: update_metrics"]}
{"id": "C147", "title": "The stored angles of a quad are its interior angles", "statement": "The angles stored for a simple counter-clockwise quad are its interior angles, they sum to 2 pi, and the exported max_angle is its largest interior angle. (False: acos never exceeds pi, so a re-entrant corner is reported with the complement of its angle; an arrow head with an inner angle of 270 degrees is exported with max_angle 90. True exactly for quads without re-entrant corners.)", "quantifier": "all simple quads with real coordinates", "why_tests_cant": "all quads; exact trigonometry", "anchors": ["src/algorithm/FacetGeometry.h: QuadGeometry::calc_angles", "src/algorithm/Quad.h: update_metrics", "src/algorithm/MeshWriter.h: write_to_vtu"]}
{"id": "C148", "title": "Shape factor and quality of quads", "statement": "Shape factor and quality of a quad lie in (0,1] and the best value 1 is reached. (False: the bound is 3.464/4 = 0.866, attained exactly by squares. True: both are positive, the quality is at most the shape factor, squares and only squares are best.)", "quantifier": "all quads with positive area, all mesh sizes", "why_tests_cant": "all quads", "anchors": ["src/algorithm/FacetGeometry.h: QuadGeometry::calc_shape_factor, calc_quality", "src/algorithm/Quad.h: quality"]}
{"id": "C149", "title": "A valid quad is a proper quad", "statement": "Quad::is_valid accepts exactly the simple quads listed counter-clockwise. (False: crossed quads of positive signed area are accepted. True: it accepts exactly the quads with positive signed area and four proper sides, hence all simple counter-clockwise quads and no clockwise one; the stored circle encloses all corners.)", "quantifier": "all quads", "why_tests_cant": "all quads", "anchors": ["src/algorithm/FacetGeometry.h: QuadGeometry::check_validity, calc_circumradius", "src/algorithm/Quad.h: is_valid"]}
{"id": "C150", "title": "Meshes made of quad layers and triangles are conforming", "statement": "A domain meshed with quad layers and triangulation steps in any order, each possibly stopped and picked up by the next, stays consistent: elements do not overlap, lie in the domain and outside the remaining front, areas add up to the area of the domain, domain vertices keep their places; when the front is empty the mesh is conforming and has the area of the domain. Splitting boundary edges is allowed, moving vertices and splitting interior front edges is not (C119, C122 show what happens then).", "quantifier": "all simple domains, all sequences of layers and triangulation runs of any length, resolution and range large enough", "why_tests_cant": "all geometries and whole sessions mixing several algorithms", "anchors": ["src/algorithm/QuadLayering.h: generate_elements", "src/algorithm/TriangulationStrategy.h", "src/algorithm/MeshingStrategy.h", "src/algorithm/FrontUpdate.h: update_front"]}
{"id": "C151", "title": "Meshes made of quad layers and triangles pass the check", "statement": "When quad layers and triangulation steps have emptied the front of a prepared domain, MeshChecker::check_completeness returns true.", "quantifier": "all simple domains, all such sessions", "why_tests_cant": "whole sessions", "anchors": ["src/algorithm/MeshChecker.h: check_completeness", "src/algorithm/QuadLayering.h: generate_elements"]}
{"id": "C152", "title": "Clearing double edges keeps a complete mesh complete", "statement": "clear_double_quad_edges and clear_double_triangle_edges turn a completely meshed domain into a completely meshed domain: each pass takes out inner vertices between two elements that share two edges, replaces the two elements by their union, and leaves a conforming mesh whose elements are counter-clockwise and tile the same domain; the calls neither fail nor touch a removed element.", "quantifier": "all conforming meshes without remaining front, any geometry, any number of repetitions inside the pass", "why_tests_cant": "all meshes, any number of passes; convexity and pointer safety of the new elements", "anchors": ["src/algorithm/MeshCleanup.h: clear_double_quad_edges, clear_double_triangle_edges, merge_degenerate_triangles"]}
{"id": "C153", "title": "The improvement of a finished triangulation keeps the domain", "statement": "The improvement at the end of generate_elements (double edges of quads, double edges of triangles, vertices of degree three) turns a completely meshed domain into a coarser completely meshed domain: vertices, inner edges only get fewer, all vertices keep place and data, boundary edges with markers, area and Euler number are the same, the elements tile the domain.", "quantifier": "all conforming meshes without remaining front whose triangles exceed the tolerance", "why_tests_cant": "all meshes; combination of three passes", "anchors": ["src/algorithm/Triangulation.h: generate_elements", "src/algorithm/MeshCleanup.h"]}
{"id": "C154", "title": "Tri2QuadModification keeps a complete mesh complete", "statement": "Tri2QuadModification::modify turns a completely meshed domain into a coarser completely meshed domain: pairs of triangles are replaced by quads, double edges are cleared afterwards, no inner vertex is moved, boundary edges, area and Euler number are the same, and the elements tile the domain.", "quantifier": "all conforming meshes without remaining front, every order in which the edges are visited", "why_tests_cant": "all meshes and visiting orders; combination of merge and two clean-up passes", "anchors": ["src/algorithm/ModificationStrategy.h: Tri2QuadModification::modify", "src/algorithm/MeshCleanup.h: clear_double_quad_edges, clear_double_triangle_edges"]}
{"id": "C155", "title": "From a domain to an improved complete mesh", "statement": "A mesh is prepared for a domain and meshed with quad layers and triangulation steps in any order until the front is empty; the improvement at the end of generate_elements then runs through. What is left is a complete mesh of the domain: conforming, its elements counter-clockwise and tiling the domain, areas adding up to the area of the domain boundaries, ends of boundary edges flagged, neighbour pointers only to live elements.", "quantifier": "all simple domains, all such sessions, all element sizes", "why_tests_cant": "whole sessions from the domain to the improved mesh", "anchors": ["src/algorithm/MeshInitializer.h: prepare_mesh", "src/algorithm/Triangulation.h: generate_elements", "src/algorithm/QuadLayering.h: generate_elements", "src/algorithm/MeshCleanup.h"]}
{"id": "C156", "title": "Smoothing keeps a complete triangle mesh a tiling", "statement": "Laplace, torsion and mixed smoothing of a complete mesh of triangles leave a complete mesh of the same domain: the triangles still tile it, conformity, areas, boundary and flags are the same, only places of free inner vertices change.", "quantifier": "all complete meshes of triangles, all displacement rules, factors, decay values and iteration counts", "why_tests_cant": "all meshes and displacements; that checks around single vertices exclude overlaps anywhere in the mesh", "anchors": ["src/algorithm/SmoothingStrategy.h: smoothing_loop, new_vertex_position_is_valid"]}
{"id": "C157", "title": "Refinement keeps a complete mesh a tiling", "statement": "Refinement of a complete mesh with convex elements and without interfaces runs through and leaves a complete mesh of the same domain, with convex elements again; this can be repeated any number of times.", "quantifier": "all complete meshes, any number of refinements", "why_tests_cant": "all meshes, repeated refinement", "anchors": ["src/algorithm/RefinementStrategy.h: QuadRefinement::refine"]}
{"id": "C158", "title": "Every processing of a finished mesh keeps the domain tiled", "statement": "Improvement, merging of triangles to quads, smoothing and refinement applied to a finished mesh in any order and any number of times leave a conforming mesh whose elements tile the domain and whose areas add up to the area of the domain boundaries (with quads, smoothing is assumed not to fold one, see C159).", "quantifier": "all domains, all sessions, all sequences of processing steps", "why_tests_cant": "sequences of five algorithms of any length from any domain", "anchors": ["src/algorithm/MeshGenerator.h", "src/algorithm/ModificationStrategy.h", "src/algorithm/SmoothingStrategy.h", "src/algorithm/RefinementStrategy.h", "src/algorithm/MeshCleanup.h"]}
{"id": "C159", "title": "Smoothing never makes elements overlap", "statement": "Smoothing of a complete mesh with quads leaves elements that tile the domain.", "quantifier": "all complete meshes, all displacement rules, factors and iteration counts", "why_tests_cant": "all meshes; the checks of the code cover two corners of each quad and edges in a limited range", "anchors": ["src/algorithm/SmoothingStrategy.h: new_vertex_position_is_valid"]}
{"id": "C160", "title": "generate_elements leaves a complete mesh or says that it did not", "statement": "Triangulation::generate_elements without limit of elements, called on a prepared mesh or after quad layers and other meshing calls: if it returns true, the mesh is a complete mesh of the domain (conforming, tiling the domain, improved) and the area counter has grown by the area of the domain; if it returns false, front edges are left and enclose exactly what is missing. generate_elements_exhaustive likewise.", "quantifier": "all simple domains, all parameters and size functions, all earlier meshing calls", "why_tests_cant": "whole runs of three nested algorithms on every domain; the returned value is about the whole mesh", "anchors": ["src/algorithm/Triangulation.h: generate_elements, generate_elements_exhaustive", "src/algorithm/MeshCleanup.h"]}
{"id": "C161", "title": "A run of the application leaves a complete mesh and reports success", "statement": "For a mesh definition with quad layers, the algorithm Triangulation or Tri-to-Quad, refinements and smoothing iterations, in which the triangulation uses up the front, the mesh is a complete mesh of the domain after every step, and the application reports success at the end.", "quantifier": "all simple domains, all mesh definitions, all numbers of layers, refinements and smoothing iterations", "why_tests_cant": "sequences of all algorithms of the library with any parameters", "anchors": ["src/app/TQMeshApp.h: MeshConstruction::generate_mesh", "src/algorithm/MeshChecker.h: check_completeness"]}
{"id": "C162", "title": "Merging two complete meshes leaves a complete mesh of both domains", "statement": "Two complete meshes beside each other, linked along their interface, are merged: the result is a complete mesh (conforming, tiling) of the union of both domains, its area is the sum, and no interface edge stays a boundary edge. With the processing of C158 before and after the merge this stays so.", "quantifier": "all pairs of complete meshes on domains without common points, with any number of interface edges", "why_tests_cant": "global property of the union of two arbitrary meshes", "anchors": ["src/algorithm/MeshMerger.h: merge", "src/algorithm/MeshGenerator.h: merge_meshes"]}
{"id": "C163", "title": "Several mesh definitions leave one complete mesh of all domains", "statement": "The application with any number of mesh definitions, each beside the mesh of the definitions before: after each definition the mesh of the generator is a complete mesh of all domains so far (merged, refined, smoothed), the assertions about the merge do not fail, and the application reports success for every definition. Quad layers must keep the interface edges.", "quantifier": "all numbers of mesh definitions, all domains beside each other, all algorithms, numbers of refinements and smoothing iterations", "why_tests_cant": "sequences of whole runs of any length, with links between meshes that every step has to keep", "anchors": ["src/app/TQMeshApp.h: MeshConstruction::generate_mesh", "src/algorithm/MeshGenerator.h: merge_meshes", "src/algorithm/MeshMerger.h", "src/algorithm/MeshBuilder.h: prepare_mesh"]}
{"id": "C164", "title": "Quad layers beside another mesh keep its interface", "statement": "A mesh definition with quad layers beside an already generated mesh: the layers keep all interface edges with their links to the other mesh, so that the meshes are merged afterwards.", "quantifier": "all meshes beside each other, all quad layers and their parameters", "why_tests_cant": "all positions of layers relative to the interface; layers split the boundary edges beside their ends", "anchors": ["src/algorithm/QuadLayering.h", "src/app/TQMeshApp.h: MeshConstruction::generate_mesh", "src/algorithm/MeshMerger.h"]}
{"id": "C165", "title": "The meshing terminates", "statement": "The loops of the triangulation return on every mesh with a front: with a limit of n elements after at most 2n(m+n) attempts per loop (m front edges); without limit, if the front encloses a region of area A and the triangles are large compared to the tolerance eps, after at most 2N(m+N) attempts for any N with N^2 eps > (2A)^2; c triangles have c^2 eps <= (2A)^2. The loop over the front edges of a quad layer ends as well. A run of the application does not loop forever.", "quantifier": "all fronts, parameters, size functions and limits", "why_tests_cant": "the loops have no bound in the code (`while (true)`); a test that returns says nothing about other inputs", "anchors": ["src/algorithm/Triangulation.h: advancing_front_loop, exhaustive_search_loop", "src/algorithm/QuadLayering.h: QuadLayerVertices::QuadLayerVertices, find_start_and_ending_edges", "src/app/TQMeshApp.h: MeshConstruction::generate_mesh"]}
{"id": "C166", "title": "The elements never cover more than the domain", "statement": "At any time of the meshing of a domain by quad layers and triangulation steps, complete or not, Mesh::area() has grown by exactly the sum of the areas of the elements, all of them positive, and this sum is at most the area of the domain; so it is after every call of generate_elements, with any limit and any result.", "quantifier": "all simple domains, all sequences of meshing calls, all limits", "why_tests_cant": "invariant of all intermediate states of all runs", "anchors": ["src/algorithm/FrontUpdate.h: advance_front", "src/algorithm/QuadLayering.h", "src/algorithm/Triangulation.h: generate_elements", "src/algorithm/Mesh.h: area, add_area"]}
{"id": "C167", "title": "The VTU file describes a complete mesh", "statement": "The VTU file of a conforming mesh can be read; its cells form a conforming mesh whose outer sides are the boundary edges, and point i is vertex i up to half of the fifth decimal. If the boundary has at most five decimals, the areas of the cells add up to the area of the domain, and the cells tile the domain. This holds for what a run of the application leaves.", "quantifier": "all conforming meshes, all numbers of vertices and elements, all runs of the application that used up the front", "why_tests_cant": "the rounding of all coordinates of all meshes; whether rounded cells still tile the domain is a statement about all points", "anchors": ["src/algorithm/MeshWriter.h: write_to_vtu", "src/utils/VtkIO.h", "src/app/TQMeshApp.h: MeshConstruction::generate_mesh"]}
{"id": "C168", "title": "The statements of the text file fit together", "statement": "In the text file of a complete mesh no edge is left in the section FRONT; every row of an interior or boundary edge names the element on its left (and right), every row of neighbours the elements across the sides of the element and -1 exactly at the boundary; every side of an element is exactly one edge.", "quantifier": "all conforming meshes, all numbers of vertices and elements", "why_tests_cant": "relations between all rows of five sections for all meshes", "anchors": ["src/algorithm/MeshWriter.h: write_to_txt", "src/algorithm/MeshCleanup.h: setup_facet_connectivity", "src/algorithm/Edge.h", "src/algorithm/Facet.h"]}
{"id": "C169", "title": "A mesh definition of an input file is read as written", "statement": "For every input file that consists of mesh definitions whose entries are single lines or tables in any order, with comments and other lines in between, the application gives to the meshing exactly the values that are written: output names, size function, boundary vertices, fixed vertices, boundaries of all kinds, fixed edges, quad layers, colour, algorithm, refinements and smoothing, with the documented values for what is not written. Nothing of one definition gets into another, and what cannot be read is reported.", "quantifier": "for all files, numbers and orders of definitions and entries, all texts of the values, all conversions of text to numbers", "why_tests_cant": "Files differ in the number, kinds and order of the entries, and each parameter keeps its own position in the file; tests read a few files.", "anchors": ["src/app/TQMeshApp.h:94-126", "src/app/TQMeshApp.h:239-874", "src/app/TQMeshApp.h:920-1080", "src/utils/ParaReader.h:519-941"]}
{"id": "C170", "title": "Refining the boundary keeps the outline of the domain", "statement": "The boundary edges of a prepared mesh are the boundary edges of the domain (or the edges of a neighbour mesh in their place), each cut at points between its ends in order. So the boundary of the mesh bounds the same region as the domain, and if the boundary of the domain does not touch itself, neither does that of the mesh; the elements of the finished mesh then cover the region of the domain exactly once.", "quantifier": "all domains with closed boundaries, all neighbour meshes, all size functions and numbers of pieces", "why_tests_cant": "the number of pieces and their positions depend on the size function; overlap of any two of them is a statement about all points", "anchors": ["src/algorithm/Front.h: refine", "src/algorithm/Front.h: create_sub_vertex_coords", "src/algorithm/FrontInitData.h:116-144", "src/algorithm/MeshBuilder.h: prepare_mesh"]}
{"id": "C171", "title": "Domains built from convex shapes have an outline that does not touch itself", "statement": "A domain that is built from shapes, one exterior convex polygon and any number of interior convex polygons inside of it that are separated by lines, has closed boundaries that meet only in their corners and wind once exactly around the points of the polygon outside of the holes, whatever the order in which the corners are given; its area is the area of the polygon less the areas of the holes. Rectangles, squares, triangles and circles are such polygons. The finished mesh covers exactly this region.", "quantifier": "all numbers of corners and holes, all positions, both orders of the corners", "why_tests_cant": "statements about all points of the plane for all polygons", "anchors": ["src/algorithm/Boundary.h:201-369", "src/algorithm/Domain.h:306-319", "src/algorithm/FrontInitData.h:116-144"]}
{"id": "C172", "title": "The domain of a mesh definition is the one drawn in it", "statement": "The domain that the application builds for a mesh definition has the vertices, sizes, boundaries, markers, fixed vertices and fixed edges that are written: the exterior boundary counter-clockwise and the interior boundaries clockwise, whether given by coordinates, by a shape, by a file or by a table of edges. It can be built whenever the definition draws a polygon with holes, its area is that of the polygon without the holes, and its mesh is prepared successfully if the outline does not touch itself. What does not draw a domain is reported.", "quantifier": "all definitions: numbers and kinds of boundaries, corners, holes, fixed edges, both orders of the corners", "why_tests_cant": "Boundaries share one list of vertices that grows while they are built, and vertices are found by a search; tests use a few domains.", "anchors": ["src/app/TQMeshApp.h:104-112", "src/app/TQMeshApp.h:381-781", "src/algorithm/Boundary.h:201-369", "src/algorithm/Domain.h:306-319", "src/algorithm/Domain.h:412-453"]}
{"id": "C173", "title": "An input file leads to a complete mesh of what it draws", "statement": "If the first mesh definition of an input file draws a polygon with holes whose outline does not touch itself, the application builds this domain, prepares its mesh and generates it. If the triangulation uses up the front, the elements of the finished mesh (after quad layers, merging of triangles, refinements and smoothing) cover the polygon without the holes exactly once, their areas add up to its area, and the application reports success.", "quantifier": "all files, polygons, holes, size functions, layers, numbers of refinements and smoothing iterations", "why_tests_cant": "The statement joins the text of a file with the geometry of the mesh; tests look at single meshes and single stages.", "anchors": ["src/app/TQMeshApp.h:94-229", "src/app/TQMeshApp.h:920-959", "src/algorithm/MeshGenerator.h:94-107", "src/algorithm/MeshBuilder.h:175-263"]}
{"id": "C174", "title": "The sizes of a file divide its boundary properly", "statement": "The size function of the domain of a mesh definition is at most the size wanted by the user and at least the smallest of the wanted size, the sides of the polygons and the sizes of single vertices; where nothing in the drawing is smaller it is the wanted size. If the sizes vary by less than a factor of 3/2, or if the wanted size changes by at most a fifth of the distance and nothing in the drawing is smaller, the refinement of the boundary ends and divides every side at points between its ends, in order. The mesh of the file is then prepared successfully and its boundary is the outline drawn.", "quantifier": "all drawings, all size functions of the two kinds, any overall variation of the sizes in the second", "why_tests_cant": "The points of a side are found by a loop over the size function and shifted afterwards; whether they stay in order depends on the values of the size function along the side.", "anchors": ["src/algorithm/Domain.h:47-111", "src/algorithm/Domain.h:282-283", "src/algorithm/Front.h:366-500", "src/app/TQMeshApp.h:783-801"]}
{"id": "C175", "title": "Sizes written for single vertices hold there", "statement": "The vertices of the domain of a mesh definition are those written in it, each with the size and range written for it. The size of the domain at a corner of a polygon or at a fixed vertex is at most the size written for it, and at the corners at most the length of the sides that meet there.", "quantifier": "all definitions and drawings, all wanted sizes", "why_tests_cant": "Vertices are shared between boundaries and found by a search; which of several sizes at a place counts depends on the whole definition.", "anchors": ["src/app/TQMeshApp.h:381-781", "src/algorithm/Boundary.h:201-369", "src/algorithm/Domain.h:47-111"]}
{"id": "C176", "title": "The element size of a definition is the expression written in it", "statement": "While a mesh definition is worked on, the size function of its domain has the value of the expression written in this definition. A text that is not an expression is reported. A size function that was made once keeps its values.", "quantifier": "all lists of definitions, all texts, all places", "why_tests_cant": "All size functions share one static expression, so the value depends on the history of the whole program; tests use one definition with a valid expression.", "anchors": ["src/app/size_function.cpp:17-60", "src/app/TQMeshApp.h:784-798", "src/app/TQMeshApp.h:943-955"]}
{"id": "C177", "title": "The preparation links a new mesh with the meshes beside it", "statement": "When a mesh is prepared next to other meshes, every boundary edge of another mesh that lies on an edge of the domain gets a counterpart: a boundary edge of the new mesh between the same points in opposite direction; the two are linked with each other. The new mesh has no other links, other links are kept, and linked edges that meet have a vertex in common. So the meshes can be merged afterwards.", "quantifier": "all domains, any number of other meshes with any number of boundary edges", "why_tests_cant": "The counterparts are matched by their position in two lists built in different classes; tests use two meshes with few edges in common.", "anchors": ["src/algorithm/FrontInitData.h:116-245", "src/algorithm/MeshBuilder.h:175-263", "src/app/TQMeshApp.h:94-229"]}
{"id": "C178", "title": "An input file with several mesh definitions leads to one conforming mesh of everything drawn", "statement": "An input file may have any number of mesh definitions. If they are well-written, if each one draws a polygon with holes that fits to the mesh of those before (along common sides the edges of the mesh divide whole sides of the new polygon, elsewhere they meet in end points only, and no region is meshed twice), and if nothing gets in the way of the runs, then the application returns one conforming mesh that covers all polygons without their holes exactly, its area is the total area, and success is reported.", "quantifier": "all input files with any number of definitions, any number of edges along common sides", "why_tests_cant": "The meshes are linked, merged and refined one after the other; the result depends on all definitions before. Tests use one or two definitions and look at counts of elements.", "anchors": ["src/app/TQMeshApp.h:94-229", "src/app/TQMeshApp.h:920-959", "src/algorithm/MeshBuilder.h:175-263", "src/algorithm/FrontInitData.h:116-245"]}
{"id": "C179", "title": "Triangles that overlap are reported exactly", "statement": "The test of a new triangle against a triangle of the mesh gives true if and only if the two have an inner point in common or a corner of one lies on a side of the other between its ends. So a triangle that is accepted overlaps no triangle in the range of the tests.", "quantifier": "all pairs of triangles with positive area, resolution above the tolerance", "why_tests_cant": "The test combines 9 pairs of sides and two centroids; whether no way to overlap is left out is a statement about all positions.", "anchors": ["src/algorithm/FacetGeometry.h:214-243", "src/algorithm/FrontUpdate.h:326-364", "src/utils/Geometry.h:170-205", "src/utils/Geometry.h:299-310"]}
{"id": "C180", "title": "An accepted triangle overlaps no quad", "statement": "A triangle that is accepted during the triangulation overlaps no convex quad in the range of the tests and has no hanging nodes with it, also if it has two opposite corners of the quad in common.", "quantifier": "all triangles and convex quads, resolution above the tolerance, quad and its corners in the range", "why_tests_cant": "The test against quads alone misses positions; only together with the test against the vertices they are all found.", "anchors": ["src/algorithm/FacetGeometry.h:250-283", "src/algorithm/FacetGeometry.h:310-334", "src/algorithm/FrontUpdate.h:326-364"]}
{"id": "C181", "title": "Elements that overlap a quad are reported exactly", "statement": "The tests of quads against triangles and quads give true if and only if the elements have an inner point in common or a corner of one lies on a side of the other between its ends. A vertex is reported if and only if it is no corner and in the quad or on a side. A front edge that passes through the quad is reported by the test against it or its ends, unless both ends are corners. (False if two opposite corners of the quad are common corners.)", "quantifier": "all convex elements, resolution above the tolerance", "why_tests_cant": "The positions that are missed are a thin set: common corners that are opposite in one element.", "anchors": ["src/algorithm/FacetGeometry.h:250-283", "src/algorithm/FacetGeometry.h:507-660", "src/algorithm/Quad.h:225-283", "src/utils/Geometry.h:273-364"]}
{"id": "C182", "title": "The mesh is recovered from the redirected output", "statement": "The program is used as `TQMesh file > mesh`. If meshes are written to the console, the redirected output is the mesh. (False: the output also has the lines of the log and can never be read as a mesh.) Dropping the lines that begin with the escape character or with # leaves exactly the meshes written, in their order, and reading them gives back the mesh. A log statement of an enabled level writes one line, one of a disabled level nothing, errors are always written.", "quantifier": "all sequences of log lines, progress bars and meshes", "why_tests_cant": "Whether a line of the mesh is ever joined with an unfinished progress bar depends on the order of all outputs; tests look at no console output.", "anchors": ["src/utils/Log.h:77-324", "src/utils/ProgressBar.h:20-83", "src/app/main.cpp:19-75", "src/app/TQMeshApp.h:204-223", "src/algorithm/MeshWriter.h:58-61", "src/algorithm/Mesh.h:380-490"]}
{"id": "C183", "title": "Progress bars never run backwards", "statement": "Whatever numbers a progress bar is updated with, the bars written are those of strictly increasing percentages between 1 and 100, so there are at most 100 of them; the last one stands at the greatest number, brought into this range. Each bar is at least as long as the one before and covers it. When more than 99 percent of the area are meshed the bar stands at 100 percent.", "quantifier": "all sequences of updates, all widths", "why_tests_cant": "Sequences of updates are unbounded; tests never look at the bar.", "anchors": ["src/utils/ProgressBar.h:20-83", "src/algorithm/MeshingStrategy.h:114-121"]}
{"id": "C184", "title": "A domain can be edited and stays sound", "statement": "After any sequence of calls that add or remove vertices, fixed vertices, fixed edges, boundaries and boundary edges, every edge of the domain ends in vertices of the domain, the vertices point to exactly the edges that end in them, and the walk along a boundary looks at no destroyed edge. (False: remove_boundary leaves vertices that point to destroyed edges, remove_fixed_vertex leaves a fixed edge at the removed vertex, remove_vertex of a fixed vertex leaves it among the fixed ones.) It holds if no vertex or boundary in use is removed, in particular if the domain is only added to, as the application does.", "quantifier": "all sequences of calls", "why_tests_cant": "Dangling pointers appear only after particular sequences of calls, and reading freed memory seldom fails in a test.", "anchors": ["src/algorithm/Domain.h:287-458", "src/algorithm/Edge.h:96-116", "src/algorithm/Edge.h:175-215", "src/algorithm/Edge.h:250-257", "src/algorithm/EdgeList.h:50-158", "src/algorithm/Boundary.h:171-192"]}
{"id": "C185", "title": "Parameters are found under the name they were registered with", "statement": "A parameter of the input file is found under its name with the type it was registered with and is never found under another name; a name is registered at most once. Every access of the application to a parameter finds one of the type it asks for, so no exception for a missing or mistyped parameter is ever thrown by a run.", "quantifier": "all sequences of registrations, all names and types; all accesses in the application", "why_tests_cant": "A misspelled name shows up only when the line that uses it is executed for an input file with this entry.", "anchors": ["src/utils/ParaReader.h:372-508", "src/app/TQMeshApp.h:973-1079", "src/app/TQMeshApp.h:246-870"]}
{"id": "C186", "title": "Refinements asked for in a file are carried out", "statement": "If the last definition of a file asks for n > 0 refinements, the final mesh has no triangles and 4^(n-1) times three quads for each triangle and four for each quad of the mesh before; every boundary edge is split into 2^n and the Euler characteristic stays the same. The application ignores whether a refinement was refused, but none is: no boundary edge of the mesh is linked to another mesh then. Without refinements the elements are those of the mesh before.", "quantifier": "all files with polygons for which the runs are good as in C178, any number of definitions and refinements", "why_tests_cant": "The returned value of the refinement is ignored, so a refusal would only be seen in the mesh; that links are gone depends on the whole history of the meshes.", "anchors": ["src/app/TQMeshApp.h:181-203", "src/algorithm/RefinementStrategy.h:29-132"]}
{"id": "C187", "title": "Elements have the colour of the definition in whose region they lie", "statement": "For an input file with several mesh definitions, every element of the final mesh that covers a point has the element colour of a definition whose region contains that point, and every definition's region is covered by elements of its colour. This holds after quad layers, triangulation, improvement, quad merging, merging of the meshes, refinement and smoothing. Colours must not be negative: negative ones are replaced when meshes are merged.", "quantifier": "for all input files with any number of definitions that fit to each other and have colours that are not negative, all good runs, and all points of the plane", "why_tests_cant": "Tests can read the colours of a few elements of one finished mesh; that no step of any run moves a colour across the border of two definitions concerns all meshes and all points.", "anchors": ["src/app/TQMeshApp.h:292-304", "src/algorithm/Mesh.h:274-305", "src/algorithm/MeshMerger.h", "src/algorithm/ModificationStrategy.h:148-205", "src/algorithm/RefinementStrategy.h", "src/algorithm/SmoothingStrategy.h"]}
{"id": "C188", "title": "Boundary edges have the marker of the drawn side on which they lie", "statement": "Each boundary edge of the final mesh of an input file lies on a side that is drawn in one of the mesh definitions, and has the marker written for this side: in the row of the table, beside the corner where the side starts, or for the whole shape. This holds after the division of the boundary, quad layers, triangulation, improvement, quad merging, merging of the meshes, refinement and smoothing, for boundaries in which the code does not shift the markers: all markers are the same, or the corners are listed in the order in which they are kept (counter-clockwise outside, clockwise inside; see C19 for the others).", "quantifier": "for all input files with any number of definitions that fit to each other, all good runs and all boundary edges", "why_tests_cant": "Solvers apply boundary conditions by these markers; a test sees the markers of one mesh, not that no sequence of splits, merges and refinements ever puts a marker on another side.", "anchors": ["src/algorithm/Boundary.h:214-368", "src/algorithm/FrontInitData.h:100-240", "src/algorithm/Front.h:280-500", "src/algorithm/MeshBuilder.h:175-263", "src/algorithm/MeshMerger.h", "src/algorithm/RefinementStrategy.h", "src/app/TQMeshApp.h:406-760"]}
{"id": "C189", "title": "Every drawn side is found on the boundary of the mesh with its marker", "statement": "Each point of a side that is drawn in a mesh definition of an input file is on a boundary edge of the final mesh with the marker of this side, unless a side of another definition passes through it (there the meshes are joined). This holds after the division of the boundary, quad layers, triangulation, improvement, quad merging, merging of the meshes, refinement and smoothing, for boundaries in which the code does not shift the markers (see C19, C188).", "quantifier": "for all input files with any number of definitions that fit to each other, all good runs, all drawn sides and all points on them", "why_tests_cant": "A boundary condition must reach the whole side for which it was written; a test sees that some edges with the marker exist, not that no part of any side ever loses its edges or its marker.", "anchors": ["src/algorithm/Boundary.h:214-368", "src/algorithm/FrontInitData.h:100-240", "src/algorithm/Front.h:280-500", "src/algorithm/MeshBuilder.h:175-263", "src/algorithm/MeshMerger.h", "src/algorithm/RefinementStrategy.h", "src/app/TQMeshApp.h:406-760"]}
{"id": "C190", "title": "Markers and colours in the exported files are those of the input file", "statement": "Read back from the text file of the final mesh of an input file, every row of the boundary edges names two points that are, up to half of the fifth decimal, on a side drawn in a definition whose marker is the marker of the row; and each point of a drawn side that is on no side of another definition is on the edge of a row with its marker. This needs convex elements that are not too small (edges beside other elements may be listed as front, see C168). Read back from the VTU file, the colour of every cell is the element colour of a definition whose region contains what the cell covers, and every region is covered by cells in its colour, with places that differ from the points in the file by at most half of the fifth decimal.", "quantifier": "for all input files with any number of definitions that fit to each other, all good runs, all rows, cells, drawn sides and points of the plane", "why_tests_cant": "It is what a solver relies on that only sees the drawing and the exported file; a test compares a few lines of one file.", "anchors": ["src/app/TQMeshApp.h:85-230", "src/algorithm/MeshWriter.h:47-198", "src/algorithm/Mesh.h:380-490", "src/utils/VtkIO.h", "src/algorithm/Boundary.h:214-368", "src/algorithm/MeshMerger.h"]}
{"id": "C191", "title": "A printed quad tree shows cells that tile its extent and hold its items", "statement": "After every legal sequence of additions and removals, the output of a quad tree can be read back: its rows are, up to half of the fifth decimal, squares that tile the extent of the tree (they cover it, do not overlap, and their areas add up); the stored items can be dealt out to them such that every square contains its items and its row has their number; the numbers add up to the number of stored items, and only squares of the greatest depth have more than max_item items.", "quantifier": "for all histories of legal additions and removals, all extents, limits and positions of items", "why_tests_cant": "The output is what one looks at to judge the search structure; a test prints one small tree.", "anchors": ["src/utils/QuadTree.h:591-611", "src/utils/QuadTree.h:316-391", "src/utils/QuadTree.h:485-564"]}
{"id": "C192", "title": "The exit status of the program tells whether all meshes were made", "statement": "The program ends with the status 0 just if it was given a file that can be read, with at least one mesh definition, and every definition gave a mesh; otherwise with 1, also if an exception is thrown in any of the definitions. Arguments behind the first one have no influence. (False: without an argument, for a file without definitions, and for a definition without its end line the status is 0 although no mesh was made.)", "quantifier": "for all command lines, all files and all outcomes of the single meshes", "why_tests_cant": "Scripts rely on the status; tests call the library and never the program.", "anchors": ["src/app/main.cpp:38-75", "src/app/TQMeshApp.h:919-959", "src/utils/ParaReader.h:918-949", "src/utils/ParaReader.h:325-352"]}
{"id": "C193", "title": "Printed parameters can be used as input", "statement": "What the program prints for a parameter that it has read is a definition of this parameter in the input format: put anywhere behind lines without its key, the reader finds it and reads the printed values, as many rows as stored, every value at its place. Values may be rounded by the output, they are read as rounded. Conditions: the output of a value has no character with a meaning for the reader, and keys can be told from values.", "quantifier": "for all kinds of parameters, all values, all sizes of tables and all surrounding lines", "why_tests_cant": "Users copy the printed definitions to reproduce a run; the tests never print parameters.", "anchors": ["src/app/TQMeshApp.h:33-89", "src/utils/ParaReader.h:242-255", "src/utils/ParaReader.h:652-788"]}
{"id": "C194", "title": "A new mesh has room for its domain", "statement": "A mesh created for a domain without a given extent can store vertices and elements at every point of the bounding box of the domain's vertices: the square of its search trees contains the box with a margin of a twentieth of the greatest coordinate, and every addition there succeeds after any history of additions and removals; the square is not larger than that. (At least one vertex is not the origin. An extent given by the user is taken as it is.)", "quantifier": "for all domains, wherever they lie, and all histories of the containers", "why_tests_cant": "An item outside of the square is dropped from searches; tests use domains near the origin.", "anchors": ["src/algorithm/MeshBuilder.h:71-101", "src/algorithm/Mesh.h:39-49", "src/utils/QuadTree.h:316-347"]}
{"id": "C195", "title": "From the input file to the exported file", "statement": "If every mesh that an input file defines is constructed without an incident, the program writes one joined mesh. Its VTU file, read back, is a conforming mesh. The cells in it add up to the area drawn in the input file: exactly, if the coordinates of the boundary vertices have at most five decimals, otherwise up to the rounding of the rim. If the triangles are also larger than the rounding, the cells tile exactly the points around which the curves of the input file wind once. The elements, sides and neighbours of the text file fit together if the elements have sound shapes.", "quantifier": "for all input files with any number of meshes, all sizes, elements and numbers of refinement and smoothing steps", "why_tests_cant": "This is what a user gets from the program; tests never read an exported file back.", "anchors": ["src/app/TQMeshApp.h:872-959", "src/algorithm/MeshWriter.h:47-198", "src/utils/VtkIO.h", "src/algorithm/MeshMerger.h"]}
{"id": "C196", "title": "The settings of a search tree can be changed while it is empty", "statement": "Extent, centre and limits of a search tree can be changed just while nothing is stored in it, also after items were added and removed again; a change at another time ends the program before anything is damaged. After a change the tree behaves as a new one with these settings: additions and removals report what they did, and searches find exactly the stored items.", "quantifier": "for all sequences of additions, removals and changes, all places, extents and limits", "why_tests_cant": "Whether a tree is empty and not split any more depends on its whole history; tests change the extent of new trees only.", "anchors": ["src/utils/QuadTree.h:132-145", "src/utils/QuadTree.h:398-416", "src/algorithm/Domain.h:274-277", "src/utils/QuadTree.h:316-391"]}
{"id": "C197", "title": "A moved mesh is the same mesh at its new place", "statement": "Meshes, containers and edge lists have move constructors: after a move and the end of the source, the new object has the items of the source, its searches find them, its edges belong to it, and it can be destroyed. (False: the search tree is copied with pointers to cells that the source still owns, so that for every split tree the cells are deleted twice; the edges still refer to the old list, so that none is found in the new one. It holds for objects that are moved while they are empty, which is what the mesh builder does.)", "quantifier": "for all trees, all edge lists and all addresses", "why_tests_cant": "No test moves a mesh with elements; the failure needs more items than a cell holds and the end of the source.", "anchors": ["src/utils/Container.h:81-89", "src/utils/QuadTree.h:104-117", "src/algorithm/EdgeList.h:61-68", "src/algorithm/Mesh.h:51-63", "src/algorithm/MeshBuilder.h:105-117"]}
{"id": "C198", "title": "The meshing does not depend on the place, the direction and the unit of length", "statement": "The tests of geometry (orientation, points in segments, triangles and quads, crossing and intersecting segments, triangles and quads) give the same results if all points are shifted, turned or written in another unit of length; distances, areas and the comparison of points follow the unit. So a domain is meshed in metres as it is in millimetres.", "quantifier": "all points, all similarities of the plane, all tolerances", "why_tests_cant": "infinitely many points and units; a test has one unit", "anchors": ["src/utils/Geometry.h: orientation, in_segment, line_line_crossing, in_on_triangle, ...", "src/algorithm/FrontUpdate.h: update_front"]}
{"id": "C199", "title": "The mesh of a shifted or turned domain is the shifted or turned mesh", "statement": "If a domain with its front, its size function and its boundary is shifted or turned, and the search trees report items in the same order as before, then the meshing loops (with any limit of elements, also the exhaustive ones) have the same outcome, make the same elements at the new place, and the same area is counted. The same holds for another unit of length if the tolerance of the orientation test fits to it. Search trees whose squares are shifted and stretched with their items have the same cells and report in the same order.", "quantifier": "all meshes, fronts, sizes, limits, shifts, turns and units", "why_tests_cant": "relation between infinitely many pairs of runs", "anchors": ["src/algorithm/Triangulation.h: generate_elements", "src/algorithm/FrontUpdate.h", "src/utils/QuadTree.h: add, remove, get_items"]}
{"id": "C200", "title": "Clean-up, refinement and smoothing of a moved mesh give the moved result", "statement": "The search of neighbours, the removal of double edges and of vertices with three triangles, the merging of triangles into quads, the refinement into quads and the Laplace, torsion and mixed smoothing give for a shifted or turned mesh the shifted or turned result, with the same numbers of elements, and they fail for the same meshes. The same holds for another unit of length if the tolerance of the orientation test fits to it; the refinement and the merging need no tolerance. (With the fixed tolerance of the code a vertex that is moved in one unit can stay in another.)", "quantifier": "all meshes, shifts, turns and units, all numbers of iterations and relaxation factors", "why_tests_cant": "relation between infinitely many pairs of runs; tests have one place and one unit", "anchors": ["src/algorithm/MeshCleanup.h:94-180", "src/algorithm/MeshCleanup.h:210-684", "src/algorithm/ModificationStrategy.h:148-207", "src/algorithm/RefinementStrategy.h:102-315", "src/algorithm/SmoothingStrategy.h:60-655"]}
{"id": "C201", "title": "The quad layers of a moved domain are the moved quad layers", "statement": "If a mesh and the start and end positions of its quad layers are shifted or turned, the generation of the layers (with any number, growth and height) has the same outcome, and the layers are those of the mesh, shifted or turned. The same holds for another unit of length if the tolerance and the largest distance in the search for the start fit to it. (With the fixed largest distance of the code a start that is found in metres is not found in micrometres, and a null pointer is dereferenced.)", "quantifier": "all meshes, positions, numbers and heights of layers, shifts, turns and units", "why_tests_cant": "relation between infinitely many pairs of runs; tests have one place and one unit", "anchors": ["src/algorithm/QuadLayering.h:584-655", "src/algorithm/QuadLayering.h:66-503", "src/algorithm/QuadLayering.h:700-972", "src/algorithm/EdgeList.h:371-395"]}
{"id": "C202", "title": "Triangles are merged into quads in the order of their shortest sides", "statement": "The conversion of triangles into quads works off the pairs of adjacent triangles in the order of the shortest side of each pair, pairs with equally short sides in the order of the mesh. So a pair that is not merged lost one of its triangles to a pair that has a side at most as long as all of its own, and a pair with a shorter side than all pairs around it is merged. The order, and with it the whole conversion, is the same for a shifted or turned mesh, and in another unit of length with a tolerance that fits.", "quantifier": "all consistent meshes, all colours, shifts, turns and units", "why_tests_cant": "relation between all pairs of triangles of a mesh and the order of a sort; tests count elements of a few meshes", "anchors": ["src/algorithm/ModificationStrategy.h:105-134", "src/algorithm/ModificationStrategy.h:148-207", "src/algorithm/MeshCleanup.h:694-798", "src/algorithm/Triangle.h:296"]}
{"id": "C203", "title": "A new place of a vertex is refused if another element holds it", "statement": "The check of new places for vertices accepts a place only if it lies in the domain and in no element that does not have the vertex as a corner. (False: for quads the third corner is read for the fourth, so one half of every quad is not seen; elements whose centroid is farther away than twice the displacement are not looked at. It holds for triangles in reach and for the other half of quads in reach.)", "quantifier": "all meshes, vertices and places", "why_tests_cant": "infinitely many places; no test calls the check", "anchors": ["src/algorithm/SmoothingStrategy.h:177-213"]}
