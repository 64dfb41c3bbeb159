# A Lean model of TQMesh: design

The object of study is the C++ code in `/repo/src` (FloSewn/TQMesh), read as text; it is neither built nor
run here.  `lean/Verif` holds a Lean 4 model of parts of this code, small specifications, and theorems.

## Trusted base

* Lean 4.33.0's kernel, and the Mathlib modules imported one by one (their theorems are kernel-checked too).
* Axioms: every property theorem depends on a subset of `propext`, `Classical.choice`, `Quot.sound`
  (each property file ends with `#print axioms` lines).  No own axioms, no `sorry`, no `native_decide`,
  no `bv_decide`.
* The reading of the C++ code.  Nothing ties the model to the code but the citations
  (`file:lines`) in front of every model definition.

## How code is turned into a model

* **Numbers.** `double` is modelled by an arbitrary linearly ordered field `K` (exact arithmetic; `ℚ` for
  executable witnesses, `ℝ` where roots are needed or a square-root function given as a parameter with the
  inequality that is used).  Rounding, overflow, NaN and infinities are not modelled.  Tolerances that occur in
  the code (`CPPUTILS_SMALL`, ...) are parameters.  Flag bytes are `BitVec 8`.  `size_t`/`int` are `Nat`/`Int`
  unless wrap-around is the point.
* **Pointers** are identifiers; `nullptr` is `none`; a list of `unique_ptr` is a `List`; a function that
  mutates an object returns the new value.
* **Failure.** `ASSERT` (an abort in debug builds, a no-op under `NDEBUG`), `TERMINATE`, exceptions and
  undefined behaviour are distinct outcomes of the modelled function, never silently totalised.
* **Loops** are structural recursion, folds, or take fuel where the code has no visible bound (then the bound
  or the termination claim is a theorem).
* **Geometry-driven choices** (which candidate is valid, which displacement is taken, ...) that do not matter
  for a property are parameters, so that the theorem holds for every outcome of the geometric tests.
* Files `Verif/<Area>/Model.lean` hold model definitions, `Spec.lean` the independent specification,
  `Lemmas*.lean` helper lemmas and `Props.lean` the property theorems together with examples meeting their
  hypotheses.

## Not modelled

Floating-point rounding; timer, log streams other than the console (the console output itself is modelled in Console/); exprtk (user size function
is an arbitrary function; that a text which cannot be compiled leaves the static expression as it was is modelled, C176); the operating system and file streams below the level of lines/characters; memory
management beyond "live / in waste / dangling"; the example programs and the test drivers; performance.

When the unchanged code violates a property, the file holds the refutation (a theorem about a concrete witness
or a general negative statement, name ending in `_violated` / `_refuted`) and the strongest part that does hold (name ending in `_partial`).


## Which code is modelled

Line ranges cited by the model definitions, per model file:

* `lean/Verif/Angles/Model.lean`: algorithm/FacetGeometry.h 80-82, 87-104, 109-125, 116, 130-147, 152-169, 380-383, 388-399, 404-406, 411-432, 437-455, 445, 460-480, 485-502; algorithm/Quad.h 294-295, 299-330; algorithm/Triangle.h 269-270, 272-303; utils/VecND.h 234-238, 313, 314
* `lean/Verif/App/EchoModel.lean`: app/TQMeshApp.h 33-89, 47-53, 74-80
* `lean/Verif/App/MainModel.lean`: algorithm/Error.h 22-30; app/main.cpp 38-75; utils/ParaReader.h 325-339, 922-923, 943-946
* `lean/Verif/App/Model.lean`: algorithm/Domain.h 204-210; app/TQMeshApp.h 388-403, 394, 431-447, 438, 580-760, 598-614, 605, 794, 803-850, 859, 862, 871, 928-959, 940-957; utils/QuadTree.h 94-100
* `lean/Verif/Boundary/Model.lean`: algorithm/Boundary.h 26-30, 61-130, 74-128, 78-126, 87-114, 104, 109, 117, 121, 155-160, 175-187, 194-195, 252-277, 315-369, 331-348, 336-347, 352-368; algorithm/Edge.h 99, 110-111, 175-193, 203-221, 264-284; algorithm/EdgeList.h 114-126, 139-154, 183-225, 192-197, 233-267, 240-265, 402-433, 412-413, 439-463, 446-447, 507-530, 517-525, 583-585; algorithm/Vertex.h 69-75
* `lean/Verif/Cleanup/Model.lean`: algorithm/EdgeList.h 161-169; algorithm/EntityChecks.h 105-173; algorithm/Front.h 117-137, 124-135; algorithm/Mesh.h 208-222; algorithm/MeshCleanup.h 58-75, 94-180, 98-147, 109-126, 132-135, 142-145, 150-178, 174-177, 210-389, 219-222, 230-330, 237-329, 237-275, 281-324, 334-355, 357-384, 423-587, 442-530, 490-517, 533-552, 554-582, 589-684, 596-621, 625-681, 641-647, 743-798; algorithm/MeshWriter.h 134-139, 155-159; algorithm/MeshingStrategy.h 78-83, 90-109, 93-108; algorithm/ModificationStrategy.h 108-116, 148-207, 150-205, 180-199; algorithm/Quad.h; algorithm/Triangle.h; algorithm/Triangulation.h 82-89, 102-106
* `lean/Verif/Cleanup/OrderModel.lean`: algorithm/Facet.h 143; algorithm/MeshCleanup.h 694-723; algorithm/ModificationStrategy.h 105-134, 123-129; algorithm/Triangle.h 296
* `lean/Verif/Config/Model.lean`: app/TQMeshApp.h 94-126, 239-256, 261-270, 275-286, 291-302, 307-341, 322-338, 346-370, 361-367, 375-406, 390-391, 411-570, 422-447, 433-435, 452-481, 463-476, 486-501, 506-521, 525-539, 543-557, 561-566, 580-760, 591-614, 600-602, 624-653, 635-649, 662-680, 686-704, 710-727, 732-749, 753-757, 803-850, 826-834, 856-874, 878-907, 886-888, 920-959, 940-957, 973-1079, 980-1077, 986-1055; utils/ParaReader.h 242-247, 249-255, 403-473, 416, 519-530, 570-598, 633-638, 951-952
* `lean/Verif/Config/RegModel.lean`: app/TQMeshApp.h 246-870, 977-978, 983-1073; utils/ParaReader.h 372-472, 380-381, 390, 408-409, 419, 433-434, 443, 459-460, 469, 477-490, 495-508, 951-952
* `lean/Verif/Console/Model.lean`: algorithm/MeshWriter.h 59-61; algorithm/MeshingStrategy.h 114-121, 131; app/TQMeshApp.h 94-234, 205, 222, 941-955; app/main.cpp 19-32, 40-46, 51-66; utils/Log.h 20-21, 23-24, 77-230, 164-185, 166, 200-228, 242-324, 253-263, 257-258, 268-283, 272-273, 275-277, 288-301, 291-292, 293, 306-315, 321-322; utils/ProgressBar.h 24-26, 31-44, 49-64, 56-60, 67-70, 68-70
* `lean/Verif/Container/Model.lean`: utils/Container.h 51-55, 100, 111-117, 122-128, 141-161, 174-188, 193-209, 215, 220-239, 284-291
* `lean/Verif/Domain/EditModel.lean`: algorithm/Boundary.h 171-184, 191-192; algorithm/Domain.h 287-300, 324-325, 395-403, 408-409, 414-424, 429-440, 445-453, 458, 478-488; algorithm/Edge.h 96-116, 111-112, 175-193, 250-257, 263-264, 265; algorithm/EdgeList.h 50, 158; algorithm/Vertex.h 236, 262-263; utils/Container.h 141-173, 174-190, 320
* `lean/Verif/Domain/Model.lean`: algorithm/Domain.h 47-111, 59-93, 65-66, 96-107, 100-106, 117-169, 122-124, 130-140, 134-135, 153-162, 155-161, 164-166, 220-235, 240-252, 341-354, 359-391, 472-478, 482-489; algorithm/Edge.h 110; algorithm/Vertex.h 69-75, 96-97; utils/QuadTree.h 34-44
* `lean/Verif/Extent/Model.lean`: algorithm/Mesh.h 39-49; algorithm/MeshBuilder.h 80-94, 85-90, 96-98; utils/Container.h 51-55; utils/MathUtility.h 78-82
* `lean/Verif/Front/Model.lean`: algorithm/Edge.h 99, 165; algorithm/EdgeList.h 507-530; algorithm/Front.h 67-114, 93-109, 154-165, 171-179, 171-222, 181-186, 198-208, 210-217, 231-255, 262-283, 271-276, 290-345, 312-315, 350-361, 367-385, 396-497, 417-418, 421-443, 445-467, 470-489, 471-478, 480-488, 506-544, 528-531, 539-542; algorithm/FrontInitData.h 70-74, 116-144, 165-208, 177-204, 213-226, 231-245, 250-256; algorithm/Vertex.h 96-116
* `lean/Verif/FrontUpdate/Model.lean`: algorithm/FacetGeometry.h 80-82, 109-125, 130-147, 152-169, 174-334, 174-181, 186-207, 219-243, 258-280, 299-303, 320-330, 481-492; algorithm/FrontUpdate.h 58-138, 63-118, 75-78, 91-92, 105-106, 143-175, 180-202, 256-287, 266-283, 295-320, 304, 307-310, 326-364, 370-392, 398-415; algorithm/Triangle.h 289-291, 293; utils/Container.h
* `lean/Verif/Generator/Model.lean`: algorithm/EdgeList.h 282-303; algorithm/EntityChecks.h 35-98, 181-187; algorithm/Front.h 231-255, 262-283; algorithm/Mesh.h 112-113; algorithm/MeshBuilder.h 62-68, 136-153, 175-263, 199-200, 211-222, 219-221, 225-258, 268-270; algorithm/MeshGenerator.h 75, 78-83, 85-86, 94-107, 112-139, 160-246, 256-375, 380-392; utils/Container.h 175-189, 231-239
* `lean/Verif/Geometry/Model.lean`: utils/Geometry.h 18-24, 40-54, 44-45, 60-67, 74-82, 88-104, 111-127, 139-158, 149-152, 170-205, 180-183, 223-232, 248-257, 273-284, 299-310, 325-338, 353-364, 373-383, 391-397, 405-411, 417-425, 432-440, 446-454, 461-469, 480-501, 484-494, 494, 508-518, 528-541, 533-538, 536-537; utils/VecND.h 30-310, 143, 234, 287-291, 341-342, 352, 364, 441, 449, 482, 491
* `lean/Verif/Merger/Model.lean`: algorithm/Edge.h 149; algorithm/Facet.h 145; algorithm/MeshMerger.h 48-92, 80-84, 101-138, 105-134, 116, 128-131, 146-157, 166-184, 192-207, 215-228, 238-266, 245, 272-316, 277-302, 288, 323
* `lean/Verif/Mesh/Model.lean`: algorithm/Edge.h 98-115, 122, 162-163, 164, 175-193, 203-221, 250-257, 264-284; algorithm/EdgeList.h 114-126, 139-143, 159, 472-482, 489-500; algorithm/Facet.h 71, 87-105; algorithm/FacetGeometry.h 32-34, 39-45, 50-64, 357-360, 365-375; algorithm/Mesh.h 39-49, 73, 242-254, 260-264, 269-281, 274-277, 286-298, 291-294, 303-307, 312-317, 323-327, 329-333, 335-339, 341-348, 350-357, 371-372; algorithm/Quad.h 91-94, 103-114, 176-183, 203-222, 337-357; algorithm/Triangle.h 83-85, 95-104, 154, 160-166, 186-201, 309-329; algorithm/Vertex.h 161, 162, 164, 165, 236-242; algorithm/utils.h
* `lean/Verif/Move/Model.lean`: algorithm/Edge.h 98-110, 262-268; algorithm/EdgeList.h 64-68, 114-166, 471-482; algorithm/Mesh.h 54-63, 341-357; utils/Container.h 81-89; utils/QuadTree.h 81-117, 107-117, 568-585
* `lean/Verif/QuadLayer/Model.lean`: algorithm/Edge.h 99, 240, 241-244; algorithm/EdgeList.h 183-225, 202, 213-214, 282-303, 331-365, 371-395, 378; algorithm/FrontUpdate.h 217-224, 236-245; algorithm/QuadLayering.h 66-79, 122-136, 124-134, 144-160, 147-153, 185-219, 197, 202-212, 256-354, 280-352, 289-292, 300-345, 318-338, 328, 334, 375-476, 405-474, 414-417, 425-467, 441-460, 481-503, 491, 508-524, 584-618, 599-608, 625-655, 660-695, 666-672, 678-684, 700-734, 715-732, 751-809, 797-805, 816-845, 825-830, 833-843, 869-914, 876, 922-972, 958
* `lean/Verif/QuadTree/Model.lean`: utils/QuadTree.h 29-32, 37-41, 46-58, 85, 92-102, 122, 123, 124, 164-181, 186-207, 194-196, 202-204, 212-227, 234-266, 271-311, 316-347, 352-391, 363-389, 398-416, 412-415, 412-414, 435-461, 466-480, 489-511, 523-530, 537-564, 583
* `lean/Verif/QuadTree/PrintModel.lean`: utils/QuadTree.h 591-611
* `lean/Verif/QuadTree/SetupModel.lean`: algorithm/Domain.h 274-277; utils/Helpers.h 44-48; utils/QuadTree.h 135-145, 398-416, 568-585
* `lean/Verif/Reader/Model.lean`: utils/ParaReader.h 35-40, 48-58, 117, 133-189, 151-175, 159-170, 199-202, 212-304, 219-237, 242-247, 249-255, 260-264, 269-275, 286-294, 310-358, 571-598, 603-644, 652-686, 664-671, 692-732, 705-712, 738-788, 793-841, 799-832, 810-814, 834-837, 846-897, 865-869, 889-892, 902-914, 929-941
* `lean/Verif/Refinement/Model.lean`: algorithm/Edge.h 99, 231, 279; algorithm/Facet.h 55; algorithm/Quad.h 168; algorithm/RefinementStrategy.h 102-132, 159-172, 166-167, 170-171, 180-197, 189-190, 203-242, 209-215, 218-241, 219-221, 224-225, 228-235, 250-297, 257-265, 268-296, 270-273, 276-277, 280-289, 302-315
* `lean/Verif/Smoothing/CoordModel.lean`: algorithm/SmoothingStrategy.h 177-213, 186-195, 200-209
* `lean/Verif/Smoothing/Model.lean`: algorithm/Domain.h 341-354; algorithm/EdgeList.h 81-82, 87-88; algorithm/FacetGeometry.h 81-82, 405-406; algorithm/MeshCleanup.h 39-48; algorithm/SmoothingStrategy.h 60, 68-109, 90-104, 115-160, 128-140, 142-156, 218-326, 226-249, 254-256, 258-289, 277, 286, 331-377, 333-375, 337-347, 382-390, 440-452, 459-478, 474, 525-537, 544-584, 553-577, 580, 623-655, 644-653; utils/MathUtility.h 49-50; utils/VecND.h 512
* `lean/Verif/Triangulation/Model.lean`: algorithm/Edge.h 99, 238-240, 241-244; algorithm/Front.h 142-148, 153-165, 171-193, 190-191; algorithm/MeshingStrategy.h 61-72; algorithm/Triangulation.h 86-98, 137-143, 160-179, 184-242, 189-239, 215-238, 251-255, 259-289, 276-286, 297-317, 323-325
* `lean/Verif/Utils/Model.lean`: algorithm/Edge.h 37-42, 37-76, 154-165, 155, 156, 157, 158; algorithm/Vertex.h 27-62, 27-33, 105-116, 106, 107, 108, 109; utils/MathUtility.h 36-46, 48-50, 52-54, 56-76, 93-109; utils/Matrix.h 75-81, 83-87, 92-98, 103-108, 122-129; utils/StringOps.h 23-57, 23-41; utils/VecND.h 143-149, 243, 262-267, 287-291, 296-299, 304-308, 341-342, 351-394, 400-476, 482, 495-501
* `lean/Verif/Whole/AppModel.lean`: algorithm/Triangulation.h 76-118, 76-154, 125-153; app/TQMeshApp.h 129-229, 142-158, 181-191, 194-195
* `lean/Verif/Whole/CleanModel.lean`: algorithm/MeshCleanup.h 210-389, 423-587; algorithm/ModificationStrategy.h 78-96; algorithm/Triangulation.h 108-114
* `lean/Verif/Whole/ExprModel.lean`: app/TQMeshApp.h 94-126, 784-798, 943-955
* `lean/Verif/Whole/FileModel.lean`: algorithm/Boundary.h 201-307; algorithm/Domain.h 220-235, 306-319, 412-421, 446-453, 468-474, 482-490; algorithm/FrontInitData.h 139-142; algorithm/MeshBuilder.h 175-263; algorithm/MeshGenerator.h 94-107; algorithm/Vertex.h; app/TQMeshApp.h 94-229, 94-126, 104-112, 142-203, 346-781, 381-404, 388-403, 422-566, 431-447, 438, 591-757, 598-614, 605, 765-781, 920-959; utils/Container.h
* `lean/Verif/Whole/Model.lean`: algorithm/MeshChecker.h 49-73, 63-70, 81-85
* `lean/Verif/Whole/MultiModel.lean`: algorithm/FrontInitData.h 116-144, 165-245, 165-208, 177-204, 213-245, 224; algorithm/Mesh.h 146-151; algorithm/MeshBuilder.h 175-263, 239-251
* `lean/Verif/Whole/OverlapModel.lean`: algorithm/FacetGeometry.h 507-517, 522-529, 534-565, 571-606, 612-631, 637-660; algorithm/Quad.h 225-283
* `lean/Verif/Whole/SeveralModel.lean`: algorithm/MeshGenerator.h 94-107; app/TQMeshApp.h 94-229, 94-126, 181-191, 920-959, 931-959, 941-955
* `lean/Verif/Whole/SizeModel.lean`: algorithm/Domain.h 47-111, 56-63, 61-62, 74-88, 98-104, 282-283; algorithm/Edge.h 130, 236-241; algorithm/Front.h 366-500
* `lean/Verif/Writer/Model.lean`: algorithm/Facet.h 142; algorithm/Mesh.h 156-198, 380-490, 456-459; algorithm/MeshCleanup.h 83-89; algorithm/MeshWriter.h 51-71, 53-55, 78-95, 80-83, 82, 100-191, 102-105, 104, 108-185, 120, 128, 133-174, 140-141, 148-152, 161-162, 169-173; utils/VtkIO.h 23-27, 85-125, 101-118, 105-115, 142-177, 182-224, 231-261, 245-250, 266-296, 280-285, 301-445, 308-310, 313-325, 314-324, 322-323, 363-365, 368-379, 369-378, 392-394, 397-409, 398-407, 423-425, 428-440, 429-438, 451-459

## Property by property

- **C01 Quad tree behaves like a multiset under any add/remove history.** `QuadTree` as a tree with stored counters; `add`/`remove`/`split`/`distribute`/`merge` modelled with assertion outcomes. Invariant by induction over the list of operations; refinement to a finite set/multiset of items. *Outcome: proved* (`C01_multiset_refinement`).
- **C02 Rectangle and circle queries return exactly the items inside.** Same model; both query recursions. Proved by structural induction: result is a permutation of the filtered abstract contents. *Outcome: proved* (`C02_queries_exact`).
- **C03 Quad tree shape invariants.** Same model; `WF` predicate defined on the tree alone, preserved by every operation. *Outcome: proved* (`C03_shape`, `C03_no_assertion`).
- **C04 add() and remove() report success truthfully.** Same model; exact characterisation of the boolean results and of the state. *Outcome: proved* (`C04_results`).
- **C05 get_nearest returns a nearest item.** Same model plus `get_leaf`, `get_nearest`; the square root is a parameter with the inequality used. *Outcome: proved* (`C05_nearest`).
- **C06 get_nearest finds something in every non-empty container.** Refuted by a concrete tree (null on a non-empty tree, undefined behaviour outside); partial: what C05 gives. *Outcome: partial* (`C06_unsplit_partial`, `C06_null_on_nonempty_violated`, `C06_outside_ub_violated`). The code violates the property: with the default container parameters and 101 items get_nearest returns null inside the extent (C06_null_on_nonempty_violated), and it dereferences null outside (C06_outside_ub_violated). The partial theorem covers trees that are not split.
- **C07 Moving an item keeps the container consistent.** `Container::update` on the same model; refuted on a shared cell border (item becomes unremovable); partial theorem when the new position is not on the low-side border / leaf is re-chosen. *Outcome: partial* (`C07_update_partial`, `C07_update_border_violated`, `C07_update_outside_ub_violated`). The code violates the property when the new coordinate lies on the border of the item's cell (C07_update_border_violated). The partial theorem covers all other new coordinates.
- **C08 Container list, waste and spatial index agree.** Container = list + waste + tree, invariant over histories; refutation for items outside the extent kept in the list. *Outcome: proved* (`C08_container_consistent`).
- **C09 Custom query predicates are honoured.** Refuted by a split tree; partial theorem for unsplit trees. *Outcome: partial* (`C09_predicate_unsplit_partial`, `C09_predicate_dropped_violated`, `C09_predicate_dropped_witness_violated`). The code violates the property: on a split tree the user predicate is ignored. The partial theorem covers unsplit trees.
- **C10 Property flags are independent.** `BitVec 8` operations, bitwise extensionality. *Outcome: proved* (`Flags.C10_bitwise`, `Flags.C10_vertex_flags_independent`, `Flags.C10_edge_flags_independent`).
- **C11 Orientation predicate is consistent.** `orientation` over an ordered field with tolerance parameter; ring identities. *Outcome: proved* (`C11_orientation_spec`, `C11_orientation_laws`, `C11_is_left_lefton`). exact arithmetic over any ordered field, tolerance as parameter
- **C12 Segment crossing test is symmetric and sound.** Symmetry by case analysis over orientations; soundness by explicit intersection parameter. *Outcome: proved* (`C12_symmetric`, `C12_crossing_iff`, `C12_adjacent_never_cross`, `C12_facets`, `C12_facets_symmetric`). exact arithmetic over any ordered field; completeness outside the tolerance band
- **C13 Point in triangle / quad tests.** Barycentric coordinates from the three orientation areas. *Outcome: proved* (`C13_in_on_triangle_complete`, `C13_in_triangle_sound`, `C13_in_on_quad_complete`, `C13_in_quad_sound`, `C13_rect`). exact arithmetic over any ordered field
- **C14 Point-segment distance is the minimum over the segment.** Quadratic function on [0,1] with clamped minimiser. *Outcome: proved* (`C14_distance_minimal`, `C14_distance_symmetric`). exact arithmetic over any ordered field
- **C15 polygon_area laws.** Shoelace sum over lists, induction. *Outcome: proved* (`C15_fan`, `C15_laws`). exact arithmetic over any ordered field, all polygon sizes
- **C16 MOD, CLAMP and argsort.** Integer arithmetic; stable merge sort as the model of `std::stable_sort`. *Outcome: proved* (`C16_mod`, `C16_clamp`, `C16_argsort`, `C16_argsort_unique`).
- **C17 Oriented edge lists are connected chains.** Edge list = list of (v1,v2,color); invariant `Chain`. *Outcome: proved* (`C17_chain`, `C17_throws`). Base class EdgeList::add_edge; the derived Boundary::add_edge bypasses the check, see C83.
- **C18 Boundaries built from coordinates are closed loops of the right orientation.** `create_boundary_shape` modelled on coordinate lists; area sign via C15 reversal law. *Outcome: proved* (`C18_shape`, `C18_progress`).
- **C19 Edge markers follow the user's segments.** Refuted by witness; partial for counter-clockwise input; exact description (shift by one) proved generally. *Outcome: partial* (`C19_markers_violated`, `C19_markers_partial`). The code violates the full statement when the input orientation is reversed (markers shift by one); the partial theorem covers inputs that already have the stored orientation.
- **C20 Boundary area equals the polygon area.** `compute_area` sum over edges versus the shoelace sum over the vertex chain. *Outcome: proved* (`C20_boundary_area`, `C20_edgelist_area`, `C20_domain_area`).
- **C21 Splitting an edge keeps the loop and its area.** Chain/closedness of the edited list proved; area staleness refuted by witness. *Outcome: partial* (`C21_split_loop`, `C21_split_area_partial`, `C21_split_area_violated`). Loop part proved; the area part is violated by the code (stored area becomes stale).
- **C22 Split position follows the documented parameter.** Refuted; exact position formula proved; agreement iff s = 1/2 for distinct end points. *Outcome: partial* (`C22_split_position_violated`, `C22_split_position_partial`). The code violates the documented position (mirrored parameter).
- **C23 Inside test decision for domains.** Decision logic over per-boundary tests; crossing-parity model of `EdgeList::is_inside`. *Outcome: proved* (`C23_domain_inside`, `C23_inside_reorder`, `C23_outside_box`).
- **C24 Points on boundary edges count as inside.** Refuted by a rectangle. *Outcome: partial* (`C24_left_side_violated`, `C24_on_edge_partial`). The code violates the full statement (points on the left edge).
- **C25 Domain extent is the bounding box of its vertices.** Refuted by a domain away from the origin; partial: the extent is the bounding box of vertices together with the origin. *Outcome: partial* (`C25_extent_violated`, `C25_extent_partial`). The code violates the full statement: the extent always contains the origin.
- **C26 Self-intersecting boundaries are rejected.** No false alarms proved; completeness refuted by witness. *Outcome: partial* (`C26_no_false_alarm_partial`, `C26_missed_violated`). No false alarm proved; completeness is violated by the code.
- **C27 Effective element size is positive and bounded by the user size function.** Fold of minima over edges and vertices with an arbitrary positive decay function in place of exp. *Outcome: proved* (`C27_size_bounds`, `C27_local_sizes`). exp is any function with values in [0,1] on non-positive arguments and value 1 at 0.
- **C28 Size function export is complete.** Row-splitting printer, round trip. *Outcome: partial* (`C28_export`, `C28_grid`, `C28_overflow_violated`). Proved whenever Nx*Ny fits 32 bits, including the sample points; violated beyond (overflow of the product).
- **C29 Front initialisation data is deduplicated and consistent.** Fold with lookup; invariant over insertion. *Outcome: proved* (`C29_front_data`). exact arithmetic over any ordered field
- **C30 Initial advancing front is balanced.** Counting in/out degrees of directed edge lists. *Outcome: proved* (`C30_front_balanced`). exact arithmetic over any ordered field
- **C31 Boundary refinement partitions the edge.** Loop with fuel over positions on the edge; constant size: closed form of all gaps. *Outcome: partial* (`C31_partition_partial`, `C31_graded_partial`, `C31_debug_checks`, `C31_graded_checks`, `C31_constant_size`, `C31_sub_edges`, `C31_partition_violated`). The code violates the partition for jumping size functions; proved for sizes that vary by less than the factor 3/2 along the edge, for sizes that change by at most a fifth of the distance (C31_graded_partial, any overall variation), and for constant ones.
- **C32 Boundary refinement terminates.** Potential argument; explicit bound on the iteration count. *Outcome: proved* (`C32_terminates`, `C32_terminates_archimedean`). explicit iteration bound
- **C33 Front sorting is a permutation by edge length.** Insertion/merge sort model of `std::list::sort`; permutation and sortedness. *Outcome: proved* (`C33_sort`, `C33_base_next`).
- **C34 Advancing the front conserves area.** Front as a list of directed edges; advance step as in the code; invariant: mesh area + shoelace of front. *Outcome: proved* (`C34_area_conserved`, `C34_area_is_sum`). Histories in which the side edges taken from the front run against the new triangle (hypothesis AllOriented; C36_balance_violated shows that the code does not ensure it on fronts with slits). C34_area_is_sum needs no orientation. C140 discharges the hypothesis for simple fronts, see C142.
- **C35 An emptied front means a completely meshed domain.** Corollary of C34 and of the boundary-chain invariant (free abelian group on directed edges). *Outcome: proved* (`C35_chain`, `C35_complete`). Histories in which the side edges taken from the front run against the new triangle (hypothesis AllOriented; C36_balance_violated shows that the code does not ensure it on fronts with slits). C140 discharges the hypothesis for simple fronts, see C142.
- **C36 The front stays balanced.** Degree balance invariant for directed lookup; refutation with undirected lookup on a concrete front. *Outcome: partial* (`C36_balance_violated`, `C36_balance_partial`). The code violates it: undirected lookup on a front with two slits takes the wrong edge. Proved when the looked-up edges run against the new triangle. C140 ensures that for simple fronts.
- **C37 No duplicate interior edges.** Counting invariant over all histories; no orientation needed. *Outcome: proved* (`C37_sides_counted`, `C37_complete`, `C37_one_interior_edge`). All histories whose initial front has no ghost edges (none are created, see the model of prepare_mesh); no orientation hypothesis.
- **C38 The best candidate triangle is chosen.** Fold over candidates; maximality. *Outcome: proved* (`C38_best_triangle`). Container queries and std::sort are parameters with their specification as hypotheses.
- **C39 A failed front update leaves the mesh unchanged.** State = (vertices, triangles, front); each failing path restores it. *Outcome: proved* (`C39_failed_update`).
- **C40 on_front marks exactly the vertices of front edges.** Flag update after the step. *Outcome: partial* (`C40_on_front_violated`, `C40_step_partial`, `C40_front_flagged_partial`). The code violates it: the vertices of the base edge keep the flag when their last front edge is used up. Proved: vertices with a front edge always carry the flag; exact flags after one step.
- **C41 Element limit is respected.** Loop model with an oracle for step success; counter invariant. *Outcome: proved* (`C41_limit`). The meshing part of generate_elements (advancing loop, then exhaustive fallback), whenever it returns; C42_two_passes bounds the attempts without success.
- **C42 Meshing loops visit every front edge before giving up.** Same loop model; a ranking argument. *Outcome: proved* (`C42_all_tried`, `C42_two_passes`, `C42_exhaustive`). Record of attempts: false is returned only after a wide attempt with every edge of the final front; the first attempt of the first narrow pass is treated in C93.
- **C43 Meshing can be resumed.** Set-level round trip of front edges through the mesh. *Outcome: proved* (`C43_resume`). The front collected from a mesh that was left by a meshing step consists of the remaining front edges (set equality, directions); clean-up between the steps (run only for meshes that pass check_mesh_validity) is not part of the statement.
- **C44 A quad layer covers the requested boundary section.** Walk on a cyclic list; refuted for start = end. *Outcome: partial* (`C44_base_edges_partial`, `C44_path_unique_partial`, `C44_layer_partial`, `C44_single_violated`). Open layers with different start and end edge: the base edges are exactly the unique path. Violated when start and end edge coincide.
- **C45 Quad layer heights are bounded.** Min/average recursion over lists; induction. *Outcome: proved* (`C45_heights`, `C45_smooth`, `C45_growth`). Heights before and after smoothing, and growth.
- **C46 The next quad layer starts on the front.** Refuted by witness; partial for layers with an on-front vertex. *Outcome: partial* (`C46_next_partial`, `C46_next_violated`, `C46_last_violated`). Proved when a projected vertex on either side is flagged as front vertex. Violated: success is reported for an empty front, and the last inspected vertex is used when none is flagged.
- **C47 Mesh indices are a bijection.** Enumeration lemma. *Outcome: proved* (`C47_indices`, `C47_bijection`, `C47_export`).
- **C48 Facet connectivity is symmetric.** Edge → facets map; symmetry. *Outcome: proved* (`C48_neighbours`, `C48_symmetric`, `C48_left_right`, `C48_left_geometry`). Under the stated hypotheses on unique directed sides; LeftFacets is derived from counter-clockwise shapes above the tolerance.
- **C49 Edge index of a facet.** Case analysis over positions; all identities. *Outcome: proved* (`C49_edge_index`, `C49_bijection`).
- **C50 Double-edge cleanup inspects every quad.** Loop with the early `continue`; refuted; exact behaviour described. *Outcome: partial* (`C50_triangles`, `C50_quads_partial`, `C50_quads_violated`). The code violates the property for clear_double_quad_edges (witness); proved for clear_double_triangle_edges, and for the quads up to the first mark.
- **C51 Merging triangles to quads preserves the mesh.** Merge step on abstract mesh; counts, area, orientation. *Outcome: proved* (`C51_merge`). Every processing order; includes maximality of the merge.
- **C52 Removing degree-3 vertices preserves area.** Area identity and orientation sign. *Outcome: partial* (`C52_star_partial`, `C52_selected`, `C52_orientation_violated`). Full result for triangles with areas above the tolerance of orientation; the code violates the property for smaller ones (witness).
- **C53 Mesh merge counts.** Merge on abstract meshes; counts. *Outcome: proved* (`C53_merge`, `C53_counts`, `C53_colours`, `C53_refused`). for meshes with a common interface (Adjacent) and sound shapes; colours of elements are non-negative
- **C54 Merged elements keep their geometry.** Vertex map invariant. *Outcome: proved* (`C54_geometry`). points of elements, edges and vertices in list order
- **C55 Mesh::area() after a merge.** Refuted; exact statement: area unchanged. *Outcome: partial* (`C55_area_partial`, `C55_violated`). the code violates it: the stored area is not updated; the total area of the elements is the sum
- **C56 Quad refinement counts and Euler characteristic.** Refinement on abstract meshes; counts, Euler characteristic. *Outcome: proved* (`C56_refine`, `C56_counts`, `C56_refused`, `C56_iterate`, `C56_iterate_counts`). refine yields exactly the described mesh (every triangle gives three, every quad four quads, every edge two), conforming and proper again; a mesh with twin edges is refused unchanged; the statement holds for any number of rounds.
- **C57 Quad refinement preserves area and orientation.** Polynomial identities over an ordered field. *Outcome: proved* (`C57_areas`, `C57_convex`, `C57_iterate`). Areas of the sub-quads sum up to the area of each element, colour by colour; sub-quads of convex elements are convex; any number of rounds.
- **C58 Smoothing never moves fixed and boundary vertices.** Smoothing loop with arbitrary displacement function; invariant. *Outcome: proved* (`C58_smooth`, `C58_mixed`). Laplace, torsion and mixed smoothing; the displacement rule is arbitrary.
- **C59 Smoothing keeps triangles counter-clockwise.** Same; validity check as in the code. *Outcome: proved* (`C59_smooth`, `C59_mixed`). Laplace, torsion and mixed smoothing; the displacement rule is arbitrary.
- **C60 Smoothing keeps quads convex.** Refuted by witness for the check in the code. *Outcome: partial* (`C60_half_partial`, `C60_mixed_partial`, `C60_violated`). The code violates the property: one Laplace iteration makes a convex quad re-entrant because only two corners are checked. Proved: these two corners stay convex.
- **C61 Quad layer smoothing preserves layer heights.** Refuted: the used direction is zero whatever the stored one. *Outcome: partial* (`C61_unused`, `C61_projection_partial`, `C61_violated`). The code violates the property: the directions read are always zero, the result does not depend on the directions at all. Proved: with a unit direction one turn would keep the height.
- **C62 Smoothing iterations compose.** Factor sequence as a fold; composition law. *Outcome: proved* (`C62_factors`, `C62_mixed`, `C62_compose`, `C62_laplace`). Factors of all iterations in closed form; for Laplace smoothing also equality of the meshes.
- **C63 Mesh/domain registry.** Registry state machine (parallel lists). *Outcome: proved* (`C63_registry`).
- **C64 merge_meshes reports whether the meshes were merged.** Refuted by witness; partial: false is returned for unknown meshes. *Outcome: partial* (`C64_return_partial`, `C64_adjacent_partial`, `C64_return_violated`). The code violates the property: true is returned although nothing was merged. Proved: what the returned value does mean; with a common interface the merge happens and the donor is removed.
- **C65 Algorithm accessors return an algorithm for the requested mesh.** Cache state machine. *Outcome: proved* (`C65_accessor`, `C65_groups`).
- **C66 VTU export is decodable.** The whole file as a list of characters; a reader (lines, tags, words, numbers) written independently gives back points, cells, types, colours and flags. *Outcome: proved* (`C66_read_back`, `C66_data`, `C66_offsets`). Default (six digit) output of doubles in the data arrays is a parameter that prints words; coordinates are rational numbers, so the sign of a negative zero is not modelled.
- **C67 VTU rows are complete.** Words of the printed array are its entries; the lines hold ten each. *Outcome: proved* (`C67_entries`, `C67_layout`).
- **C68 Distinct vertices stay distinct in the VTU file.** Refuted by a mesh with two vertices 10^-6 apart; partial: differences above 10^-5 are visible. *Outcome: partial* (`C68_distinct_partial`, `C68_distinct_violated`). The code violates the property: five decimals.
- **C69 Output file extension.** String model of `find_last_of`/`substr`; partial plus refutation for the bare name. *Outcome: partial* (`C69_extension_partial`, `C69_idempotent`, `C69_bare_violated`). The code violates the property for a name that is the bare extension.
- **C70 Repeated queries enumerate all definitions.** Search loops characterised by occurrences; answers of k queries equal the filtered list of lines. *Outcome: proved* (`C70_enumerate`, `C70_hits`, `C70_position`, `C70_behind_end`).
- **C71 Mesh blocks are disjoint and in order.** Answers of k block queries equal the list given by an inductive definition, which is functional; files written as a sequence of definitions are read as these. *Outcome: proved* (`C71_blocks`, `C71_disjoint`, `C71_unique`, `C71_wellformed`, `C71_parameters`).
- **C72 Matrix parameters are read row by row.** Row by row induction over set_value/add_row; cells specified by splitting at commas. *Outcome: proved* (`C72_matrix`).
- **C73 An empty matrix definition has no rows.** Refuted; general theorem about what an empty definition yields. *Outcome: partial* (`C73_violated`, `C73_empty`, `C73_partial`). violated by the code: a definition without lines yields the first row of the previous definition
- **C74 Boundary vertex indices are validated.** Case analysis of the checks with the conversion to unsigned; exterior refuted for every number of vertices. *Outcome: partial* (`C74_interior`, `C74_exterior_violated`, `C74_exterior_partial`). holds for interior boundaries and fixed edges; violated by the code for exterior boundaries
- **C75 Vector arithmetic.** Component-wise model; refutation for `sum`. *Outcome: partial* (`Vec.C75_componentwise`, `Vec.C75_vector_space`, `Vec.C75_dot`, `Vec.C75_cross3`, `Vec.C75_eq_iff`, `Vec.C75_sum_integral_partial`, `Vec.C75_sum_violated`). Component-wise laws, dot, cross, == proved; sum() violates the property (accumulates in int), proved for integral entries only.
- **C76 Matrix swap exchanges the matrices.** Refuted by witness; exact effect. *Outcome: partial* (`C76_swap_violated`, `C76_swap_partial`). The code violates the property for matrices of different dimensions; exact condition proved.
- **C77 String splitting round trip.** `getline`-style splitting; join law. *Outcome: proved* (`C77_split_join`, `C77_join_split`, `C77_remove_empty`).
- **C78 CSV boundary reading.** Line reader with error outcome. *Outcome: proved* (`C78_line`, `C78_file`, `C78_round_trip`).
- **C79 Adding and removing mesh elements is exact.** Mesh lists; histories. *Outcome: proved* (`C79_add`, `C79_remove`, `C79_refused`).
- **C80 Circumcentre is equidistant.** Field identities. *Outcome: proved* (`C80_circumcenter`, `C80_quad_area`).
- **C81 A failed mesh preparation leaves the mesh as it was.** Case analysis of the preparation; linked-list iteration model of the dead clean-up loop (undefined behaviour). *Outcome: proved* (`C81_failed_preparation`, `C81_cleanup_violated`). The undefined behaviour of the dead clean-up loop is proved separately.
- **C82 Vertices, edges and facets know each other.** Incidence lists; invariant over histories. *Outcome: proved* (`C82_incidence`, `C82_no_dangling`). Histories as the inductive predicate MeshSpec.Built.
- **C83 Boundary::add_edge keeps the chain connected.** Refuted by a witness; partial: with the shape function or connected calls the chain holds. *Outcome: partial* (`C83_boundary_chain_violated`, `C83_boundary_chain_partial`). The code violates the full statement.
- **C84 Overlapping edges of neighbouring domains are counted exactly.** Count over the flattened edge lists; the centroid filter never removes a coincident edge. *Outcome: proved* (`C84_overlaps`).
- **C85 Neighbour edges of a boundary edge are found completely.** Model of the query, filter and sort; permutation plus sortedness. *Outcome: proved* (`C85_neighbour_edges`). edge length at least (eps/2)^(1/4)
- **C86 Front area equals the domain area.** Balanced edge chains; the fan sum telescopes on every partitioned edge. *Outcome: proved* (`C86_front_area`, `C86_front_area_polygons`). for every size function for which the sub vertices lie on the segment line
- **C87 Only boundary vertices carry the on_boundary flag.** Refuted by a witness with a fixed edge; partial: exact flag set. *Outcome: partial* (`C87_boundary_flag_violated`, `C87_boundary_flag_partial`). The code violates the property for fixed interior edges.
- **C88 Moved front data stays usable.** Refuted for every non-empty front data. *Outcome: partial* (`C88_move_violated`). The code violates the property for every non-empty front data.
- **C89 Matrix entries are addressed uniquely and survive resizing.** Flat index arithmetic; refuted for changed column count, partial otherwise. *Outcome: partial* (`C89_indexing`, `C89_resize_partial`, `C89_resize_violated`). The code violates the property when resize changes the number of columns; exact behaviour proved otherwise.
- **C90 The triangles tile the domain.** Crossing numbers as an antisymmetric edge weight: the general additive law of the front update; a counter-clockwise triangle winds once around its inside. *Outcome: proved* (`C90_cover`, `C90_tiling`). Histories in which the side edges taken from the front run against the new triangle (hypothesis AllOriented; C36_balance_violated shows that the code does not ensure it on fronts with slits). Points on no line through a side (Generic). C140 discharges the hypothesis for simple fronts, see C142.
- **C91 No vertex in a new triangle.** Barycentric bound on the distance from the centroid versus the search radius. *Outcome: proved* (`C91_no_vertex_inside`). The length function is any upper bound of the Euclidean length.
- **C92 The shape factor is normalised.** Weitzenboeck's inequality; refuted for every equilateral triangle. *Outcome: partial* (`C92_equilateral_violated`, `C92_shape_range_partial`, `C92_quality_limit`). The code violates the documented value 1: every equilateral triangle gets 1/2. Proved: range (0,1/2], quality below the shape factor, and that a limit above 1/2 rejects every triangle.
- **C93 A full narrow pass precedes the wide search.** Record of attempts; refuted by a triangle with sides of different lengths, exact passes proved. *Outcome: partial* (`C93_narrow_pass_violated`, `C93_narrow_pass_partial`). Violated by the code in the first pass (witness); the exact sequence of attempts is proved for all passes.
- **C94 Meshing a complete mesh is harmless.** Refuted for every empty front; the exhaustive variant and non-empty fronts proved. *Outcome: partial* (`C94_complete_mesh_violated`, `C94_complete_mesh_partial`). Violated by the code for every empty front; proved for the exhaustive variant and for non-empty fronts.
- **C95 The exhaustive search is exhaustive.** Refuted by a square with a hole; partial: every vertex on the loop of the base edge is tried. *Outcome: partial* (`C95_exhaustive_violated`, `C95_exhaustive_partial`). Violated by the code (square with a hole); proved: every vertex on the loop of the base edge is tried.
- **C96 check_mesh_validity detects open edges.** Refuted by a ring of elements; partial: exact characterisation. *Outcome: partial* (`C96_check_partial`, `C96_open_violated`). The code violates the property (witness); exact meaning of the check proved.
- **C97 Fixed vertices survive the clean-up.** Refuted by a square of two quads; partial: the degree-3 clean-up. *Outcome: partial* (`C97_degree_partial`, `C97_fixed_violated`). The code violates the property (witness); proved for merge_degenerate_triangles.
- **C98 Clean-up and merging keep element colours.** Refuted by concrete meshes; partial: the degree-3 clean-up. *Outcome: partial* (`C98_degree_partial`, `C98_colour_violated`). The code violates the property (witness); proved for merge_degenerate_triangles.
- **C99 Facet pointers refer to elements of the mesh.** Refuted by a removed triangle; partial: pointers that are null where an edge is open. *Outcome: partial* (`C99_pointers_partial`, `C99_stale_violated`). The code violates the property (witness); proved if open sides have null pointers before.
- **C100 Elements made by the clean-up take part in intersection tests.** Refuted by a star; partial: merging triangles to quads. *Outcome: partial* (`C100_merge_partial`, `C100_active_violated`). The code violates the property (witness); proved for the merge of triangles.
- **C101 Merged quads are convex.** Refuted by a dart; partial: the two opposite angles. *Outcome: partial* (`C101_convex_partial`, `C101_convex_violated`). The code violates the property (witness); two of the four angles proved.
- **C102 Refinement leaves free vertices movable.** Refuted by a mesh with one fixed vertex; partial: exact description of the flags. *Outcome: partial* (`C102_flags_partial`, `C102_fixed_violated`). The code violates it: witness with one fixed vertex. Partial theorem gives the exact flags.
- **C103 The merged mesh is conforming.** Invariant: the merged mesh of conforming meshes. *Outcome: proved* (`C103_conforming`).
- **C104 Vertex flags after a merge.** Invariant over the flags of all vertices. *Outcome: proved* (`C104_flags`).
- **C105 Interfaces to other meshes survive a merge.** Invariant over the twin relation of all meshes. *Outcome: proved* (`C105_twins`).
- **C106 Unmeshed meshes are not merged.** Refuted by an unmeshed receiver; partial: unmeshed donors. *Outcome: partial* (`C106_donor_partial`, `C106_violated`). the code violates it for an unmeshed receiver; unmeshed donors are refused
- **C107 The area of a mesh is the shoelace sum of its boundary.** Sides of a conforming mesh are a permutation of the edge pairs; antisymmetric sums cancel. *Outcome: proved* (`C107_area`, `C107_same`).
- **C108 Smoothing conserves the area.** C107 plus the invariant of C58. *Outcome: proved* (`C108_smooth`, `C108_mixed`).
- **C109 Laplace smoothing aims at the mean of the neighbours.** Neighbours of a triangle star are every neighbour twice; refuted for quads by a concrete mesh. *Outcome: partial* (`C109_mean_partial`, `C109_violated`). The code violates the property next to quads. Proved for interior vertices with triangles only.
- **C110 Laplace iterations bring vertices closer to their target.** One turn multiplies the distance vector by 1 - factor; refuted by a concrete mesh. *Outcome: partial* (`C110_step_partial`, `C110_distance_partial`, `C110_violated`). The code violates the property in every second iteration. Proved: exact contraction factor of one turn.
- **C111 Torsion smoothing rests at equal angles.** Closed form for four equal angles; refuted over the reals. *Outcome: partial* (`C111_drift`, `C111_violated`). The code violates the property; closed form of the drift for four neighbours.
- **C112 Accessors refuse meshes that are not registered.** Histories of the generator; refuted by a history with a merge. *Outcome: partial* (`C112_invalid_mesh_partial`, `C112_dangling_violated`). The code violates the property: the cached object of a destroyed mesh is returned. Proved: this is the only exception.
- **C113 Algorithms refer to the domain of their mesh.** Invariant over histories without reused addresses; refuted by a history that reuses one. *Outcome: partial* (`C113_domain_partial`, `C113_stale_domain_violated`). The code violates the property if the memory of a destroyed mesh is reused. Proved without reuse.
- **C114 new_mesh hands out prepared meshes only.** Refuted by a domain without exterior boundary; partial: a prepared mesh is not empty. *Outcome: partial* (`C114_prepared_partial`, `C114_unprepared_violated`). The code violates the property. Proved: if the preparation succeeds, the mesh is not empty.
- **C115 A prepared mesh is the subdivided boundary of its domain.** Composition of the front data (C29, C30, C86) with the mesh operations. *Outcome: proved* (`C115_prepared`, `C115_vertices`).
- **C116 Fixed edges of the domain are edges of the mesh.** Refuted by the square with a fixed diagonal; partial: end points are mesh vertices. *Outcome: partial* (`C116_ends_partial`, `C116_lost_violated`). The code violates the property: fixed edges are dropped. Proved: their end points are vertices of the mesh.
- **C117 The triangulation tiles the domain.** Composition of C115 with C35 and C90. *Outcome: partial* (`C117_tiles_simple_domain`, `C117_tiles_domain_partial`). C117_tiles_simple_domain needs no hypothesis on directions for a prepared boundary that is simple; tolerance below the resolution and ranges of the checks (C140) remain hypotheses on the run. C117_tiles_domain_partial assumes AllOriented instead.
- **C118 The end of a quad layer is put on the neighbouring edge.** Exact vector functions as hypotheses; vector algebra for the foot point; Cauchy-Schwarz for the factor. *Outcome: proved* (`C118_end_placed`, `C118_factor`). Norm and cosine are exact by hypothesis.
- **C119 Quad layers conserve what the front encloses.** Instrumented history of the layers; conservation of any antisymmetric weight over sides (area, winding number) by induction over the steps. *Outcome: partial* (`C119_tiling_partial`, `C119_conserved_partial`, `C119_conserved_violated`). The code violates the full statement: C119_conserved_violated has a layer that moves a vertex of the neighbouring front edge and enlarges the domain from 9/2 to 37/8. C119_conserved_partial: proved for layers on partly meshed domains that move nothing and split only boundary edges, with tolerance below the resolution; C119_tiling_partial: the same law for well-formed meshes whose triangles have their base in the front and positive orientation.
- **C120 Quad layers keep the vertices of the mesh.** From the same invariant; refuted by the square with a layer of height 3/4. *Outcome: partial* (`C120_places_partial`, `C120_places_violated`). Proved under the hypothesis of C119. Violated: boundary vertices are moved.
- **C121 Elements of quad layers are proper.** Signed area positive by the validity checks, quads as sums of two triangles; convexity refuted. *Outcome: partial* (`C121_positive_partial`, `C121_convex_violated`). Positive areas under the hypothesis of C119. Convexity is violated.
- **C122 Quad layers leave no hanging nodes.** Refuted by two layers that meet; partial: boundary edges are split with the front edge. *Outcome: partial* (`C122_boundary_partial`, `C122_hanging_violated`). Boundary edges are split with the front edge. Violated for sides of elements of earlier layers.
- **C123 Quad layers are not higher than their base edges.** Refuted by a short edge between long ones; partial at the ends. *Outcome: partial* (`C123_aspect_partial`, `C123_aspect_violated`). Proved at the ends of the layer (and before smoothing by C45). Violated after smoothing.
- **C124 Quad layers never dereference a null pointer.** Refuted by a layer that fills the domain; partial for the search of the ends. *Outcome: partial* (`C124_ends_partial`, `C124_null_violated`). The search for the ends of a layer is safe on a closed front that is not empty. Violated when a layer fills the domain and another one is requested.
- **C125 Text export is decodable.** Reader of the sections, independent of the writer. *Outcome: proved* (`C125_read_back`). Stale element pointers are excluded by a hypothesis.
- **C126 Every edge is written exactly once to the text file.** Filters of the three sections partition the edge lists. *Outcome: proved* (`C126_edges_once`). Stale element pointers are excluded by a hypothesis.
- **C127 Lines of a matrix keep their columns.** Refuted by two definitions; partial: full lines. *Outcome: partial* (`C127_violated`, `C127_violated_default`, `C127_partial`, `C72_matrix`). violated by the code; proved for lines with as many entries as columns (without default values) and, in C72, for lines with at most as many (with default values)
- **C128 No definition is lost silently.** Refuted by three lines; partial: with default values the loop visits all lines. *Outcome: partial* (`C128_violated`, `C128_partial`). violated by the code for definitions without default values; proved with default values
- **C129 Comments do not contribute values.** Refuted by one line. *Outcome: partial* (`C129_violated`, `C132_scalar`). violated by the code inside matrix definitions; for scalars the comment is cut off (C132)
- **C130 Blank lines do not define rows.** Refuted in general from C72. *Outcome: partial* (`C130_violated`). violated by the code for every blank line in a definition with default values
- **C131 Values out of range are not answered.** Refuted; partial: places inside the matrix. *Outcome: partial* (`C131_violated`, `C131_partial`). violated by the code; proved: places inside the matrix are distinct and no read leaves the storage
- **C132 A scalar query reads the value behind the key.** Composition of the search lemma with the conversion; text values with blanks refuted. *Outcome: proved* (`C132_scalar`, `C132_blanks_violated`). text values with blanks are a recorded limitation (C132_blanks_violated)
- **C133 Values do not survive from one mesh to the next.** Refuted by two blocks; partial: the returned flag. *Outcome: partial* (`C133_violated`, `C133_partial`). violated by the code for found(); the flag returned by query is reliable
- **C134 Exactly the comment lines are skipped.** Filter characterised by a grammar of comment lines. *Outcome: proved* (`C134_comments`, `C134_counts`).
- **C135 Errors name the mesh.** Pointer arithmetic as dropping of characters; refuted. *Outcome: partial* (`C135_violated`, `C135_partial`). violated by the code
- **C136 The search tree of a domain covers all its vertices.** Bound of the fold; refuted for fixed vertices. *Outcome: partial* (`C136_violated`, `C136_boundary_partial`). violated by the code for fixed vertices; proved for the list of boundary vertices
- **C137 The exit status reflects all meshes.** Induction over the list of blocks of C71; refuted for an unclosed definition. *Outcome: partial* (`C137_run`, `C137_violated`). violated by the code for a definition without end line; proved for the definitions that are found
- **C138 Every mesh has exactly one exterior boundary.** Characterisation of the first success; refuted. *Outcome: partial* (`C138_pick`, `C138_violated`). violated by the code; proved: the first definition that can be read is used
- **C139 Predefined shapes have the geometry asked for.** Existence (C18_progress) and exact corners via C18/C19; the circle over the reals with the true sine and cosine. *Outcome: proved* (`C139_rectangle`, `C139_square`, `C139_circle`, `C139_triangle`, `C139_circle_few`). Exact arithmetic; circle and triangle over the reals with the true sine and cosine. A circle with n < 3 is silently not created (C139_circle_few). That the nearest-vertex lookup answers is a hypothesis (see C06).
- **C140 The advancing front stays simple.** Winding numbers: constant off the front, jump by one across an edge; a triangle that meets the front only in edges and corners lies in the region; checks of ValidTriangle imply that. *Outcome: proved* (`C140_stays_simple`, `C140_new_triangles_free`, `C140_reach_of_size`, `C140_long_edges_violated`). For fronts meeting the stated conditions (simple, exact queries, tolerance below resolution, edges within the range of the checks). C140_reach_of_size gives a condition on edge lengths; C140_long_edges_violated shows that the range condition cannot be dropped.
- **C141 New triangles never overlap.** C140 and the covering law C90. *Outcome: proved* (`C141_no_overlap`). Under the conditions of C140.
- **C142 A used-up front leaves an exact tiling.** C140 with C34, C35, C90. *Outcome: proved* (`C142_complete`, `C142_area_conserved`). Under the conditions of C140.
- **C143 Triangulation steps leave a conforming mesh.** An invariant (sides of elements plus front = boundary edges as chains; two sides per interior edge; simple front and boundary) of start, update and resume; it implies conformity through winding numbers. *Outcome: proved* (`C143_session`, `C143_domain`). Bare start state (a prepared mesh, see prepared_bare), exact queries, tolerance below the resolution, reach condition of C140. The clean-up passes between generate_elements calls (clear_double_*_edges, merge_degenerate_triangles, C50-C52) are not part of a session.
- **C144 A complete triangulation passes the check.** Pointers after setup_facet_connectivity (C48) and the area law C34. *Outcome: proved* (`C144_conforming_passes`, `C144_session_passes`).
- **C145 Only complete meshes pass the check.** Converse of C144 for fresh pointers; tiling from conformity and winding numbers; witness far from the origin. *Outcome: partial* (`C145_far_violated`, `C145_sound_partial`, `C145_tiles_partial`, `C145_area_partial`, `C145_links_partial`). The code violates the property (area threshold scaled with an extent that contains the origin); proved for meshes without stale pointers relative to their own boundary edges, together with the bound of the area difference and the pointers left by the check.
- **C146 The stored angles of a triangle are its interior angles.** Identify acos of the quotient with Mathlib's Euclidean angle; angle sum of a triangle. *Outcome: proved* (`C146_triangle_angles`). Over the real numbers; rounding may push the argument of acos out of [-1,1].
- **C147 The stored angles of a quad are its interior angles.** Cut along the diagonal: two triangles; angles at the ends of the diagonal add up along the crossing of the diagonals; reflex corner handled by the opposite ray; witness arrow head. *Outcome: partial* (`C147_quad_angles_partial`, `C147_bounded`, `C147_reentrant_violated`). The code violates it at re-entrant corners; exact characterisation of the quads for which it holds.
- **C148 Shape factor and quality of quads.** Sum of squared sides minus four times the area is a sum of two squares that vanishes exactly for squares. *Outcome: partial* (`C148_quad_shape_partial`, `C148_best_violated`). The code violates it: best value 0.866; the rest is proved.
- **C149 A valid quad is a proper quad.** Decision logic of check_validity; witness bow tie. *Outcome: partial* (`C149_quad_valid_partial`, `C149_circle`, `C149_bowtie_violated`). The code violates it: crossed quads pass.
- **C150 Meshes made of quad layers and triangles are conforming.** The invariant of C143 is kept by every change of a quad layer (split of a boundary edge, gap triangles, the two triangles of a quad and their merge, failures); induction over sessions. *Outcome: proved* (`C150_work`, `C150_domain`). Sessions are the inductive predicate WholeSpec.Work; hypotheses: exact queries, tolerance below the resolution, checks reach far enough, nothing moved.
- **C151 Meshes made of quad layers and triangles pass the check.** C150 with C144. *Outcome: proved* (`C151_work_passes`). Same hypotheses as C150 and elements found left of their sides.
- **C152 Clearing double edges keeps a complete mesh complete.** Geometry of two counter-clockwise elements with two common edges (TwinGeo), combinatorics of the vertex between them (Twins, Fan), loop invariant over the passes (Doubles, Doubles2, Doubles3, Clean). *Outcome: proved* (`C152_double_quads`, `C152_double_tris`). Complete meshes with neighbour pointers as built (or refreshed); for pointers left over from removed elements see C99.
- **C153 The improvement of a finished triangulation keeps the domain.** C152 twice, then the vertices of degree three (C52); the relation Coarsened is composed over the passes. *Outcome: proved* (`C153_improve`, `C153_degenerate`). Triangles larger than the tolerance (BigTris); neighbour pointers along boundary edges null.
- **C154 Tri2QuadModification keeps a complete mesh complete.** The loop of C51 (merge_minv) followed by C152 twice. *Outcome: proved* (`C154_modify`, `C154_steps`). Facets found to the left of their sides (LeftFacets, follows from C48 for elements larger than the tolerance); visiting order arbitrary.
- **C155 From a domain to an improved complete mesh.** C150 gives the invariant and conformity at the end, Whole/Ptr the pointers, Whole/Flag the flags of the boundary; then C153; the area by the shoelace argument for winding numbers (Whole/Final). *Outcome: proved* (`C155_session`, `C155_improved`, `C155_domain`). Hypotheses as in C150 (simple boundary, resolution and range large enough).
- **C156 Smoothing keeps a complete triangle mesh a tiling.** C58, C59 and C108 give places, orientation and area; orientation and unchanged boundary give completeness, the winding argument of complete_tiled the tiling. *Outcome: proved* (`C156_triangles`, `C156_triangles_mixed`). For meshes of triangles; meshes with quads are C159.
- **C157 Refinement keeps a complete mesh a tiling.** Each element is cut into four or three counter-clockwise quads; the boundary is cut at mid-points, which keeps it simple and its winding numbers. *Outcome: proved* (`C157_refine`, `C157_iterate`). Refinement is refused on meshes with interfaces (C56_refused).
- **C158 Every processing of a finished mesh keeps the domain tiled.** Induction over the processing steps with C153, C154, C157 and C159. *Outcome: proved* (`C158_processed`, `C158_domain`). Smoothing with quads under the assumption that it folds none (C159).
- **C159 Smoothing never makes elements overlap.** A concrete mesh with convex elements on which one Laplace step makes two elements overlap; the statement holds when no quad is folded, and winding numbers always add up. *Outcome: partial* (`C159_violated`, `C159_smooth_partial`, `C159_mixed_partial`). The code violates it: C159_violated is a complete mesh with convex elements that one Laplace step with the default factor turns into overlapping elements. Proved: it holds when no quad is folded, and winding numbers add up in any case.
- **C160 generate_elements leaves a complete mesh or says that it did not.** C41/C42 give the run behind the returned value, Whole/Reach states its conditions for the triangles of the result, C155 does the improvement, and the area counter follows the invariant of sessions (C150); conditions: tolerance below the resolution, ranges of the checks large enough (C160_sized: edges at most 4/3 of the size function). *Outcome: proved* (`C160_complete`, `C160_incomplete`, `C160_defined`, `C160_exhaustive`, `C160_sized`). Conditions: simple domain (Bare), tolerance below the resolution of the mesh and ranges of the checks large enough (MeshedWell; implied by edges of at most 4/3 of the size function, C160_sized). C160_defined: undefined behaviour only in the improvement of an unfinished mesh.
- **C161 A run of the application leaves a complete mesh and reports success.** C160, then C154, C157, C159 step by step; the verdict by C144. Conditions: layers as in C150, elements convex before refinement, no quad folded by smoothing (C159; nothing needed for triangle meshes). *Outcome: proved* (`C161_application`, `C161_triangles`). For the first mesh definition (no merging with an earlier mesh). Conditions: layers as in C150, those of C160, convex elements before refinement, no quad folded by smoothing (the code can fold quads, C159; triangle meshes need no such condition).
- **C162 Merging two complete meshes leaves a complete mesh of both domains.** The merged mesh consists of the elements of both (C53, C103); its sides, boundary and winding numbers are the sums, interface edges cancel (Whole/Union); UnionLine gives the hypothesis for meshes on both sides of a line. *Outcome: proved* (`C162_merge`, `C162_processed`). Whole/UnionProps; hypothesis SideBySide (no common points, mutual links, edges off the interface meet in end points only).
- **C163 Several mesh definitions leave one complete mesh of all domains.** C160/C154 up to the merge, with the boundary edges and links kept by every step (Whole/Next, Whole/Links); C162 for the merge; C157, C159 after it; the verdict by C144 and C55. Induction over the definitions. Condition: quad layers keep the interface edges (RimKept; other boundary edges may be cut), see C164. *Outcome: proved* (`C163_next`, `C163_merges`, `C163_definitions`). Whole/NextProps, example in Whole/NextExample (two squares); conditions as in C161 for every definition, Beside for the prepared mesh, RimKept for quad layers.
- **C164 Quad layers beside another mesh keep its interface.** Refuted: a layer that starts at the end of an interface edge splits that edge, the parts have no links, the merge is refused and the assertion after it fails (C164_interface_violated). It holds for layers that split no interface edge: induction over the log of the layers (Whole/RimLayer), then C163. *Outcome: partial* (`C164_interface_violated`, `C164_links_partial`, `C164_merged_partial`). The code violates it: a quad layer whose first or last edge is next to an interface edge splits that edge into parts without links, the merge is refused and the assertion on the number of meshes aborts the run (C164_interface_violated). Proved: layers that split no interface edge keep all links and the merge gives a complete mesh.
- **C165 The meshing terminates.** A new triangle lengthens the front by at most one edge; between two triangles at most two passes over the front (C42): Triangulation/Term counts attempts. Simple fronts enclose non-negative area (FrontUpdate/AreaPos: decomposition into horizontal strips), the area is conserved (C142), and every triangle has twice the area >= sqrt(eps): so the number of triangles is bounded. *Outcome: proved* (`C165_limited`, `C165_limited_exhaustive`, `C165_count`, `C165_terminates`, `C165_some_turns`, `C165_same_result`, `C165_triangulate`, `C165_application`, `C165_layer_walk`, `C165_walk_any`, `C165_all_layers`, `C165_all_generated`). Triangulation loops, quad layer walk, triangulate and generateMesh. Without limit under the conditions of C140 (tolerance below the resolution, ranges of the checks large enough) in the states that the loops pass through, and for fronts that enclose a region; with a limit without any condition on the geometry.
- **C166 The elements never cover more than the domain.** The invariant of sessions (C150) with the same theorem on the area of simple fronts. *Outcome: proved* (`C166_work`, `C166_triangulate`). For sessions of layers as in C150 and triangulation steps under the conditions of C140.
- **C167 The VTU file describes a complete mesh.** Read the written file (C66-C68) into points and cells; the rounded places are a mesh with the same elements, so that the theorems on conforming meshes and winding numbers (C150) apply to the file. *Outcome: partial* (`C167_conforming`, `C167_area_rim`, `C167_area`, `C167_area_near`, `C167_tiles_partial`, `C167_positive`, `C167_application_partial`, `C167_violated`). Proved: the file can be read, is conforming, its rim is the boundary (C167_conforming); its area is the enclosed one (C167_area_rim, C167_area; C167_area_near in general); the cells tile the domain if they are counter-clockwise in the file (C167_tiles_partial), which holds if no triangle is so thin that rounding folds it (C167_positive); composed with runs of the application (C167_application_partial). The code violates the statement for thin elements: C167_violated is a complete mesh whose file has a clockwise, overlapping cell.
- **C168 The statements of the text file fit together.** Read the sections (C125), translate the pointers that the clean-up sets (C48) into numbers. *Outcome: partial* (`C168_fits_partial`, `C168_mesh_partial`, `C168_violated`). Proved for all conforming meshes whose element centres are left of the sides, in particular for convex elements (C168_fits_partial, C168_mesh_partial). The code violates the statement for quads that are not convex: C168_violated is a complete mesh in whose file two interior edges are listed as FRONT.
- **C169 A mesh definition of an input file is read as written.** Config: specification of the entries by their words and cells, cursors of the parameters by the lines that are left, one lemma per kind of entry, induction over the entries of a name and over the definitions of a file. Violated for unreadable values, repeated entries and empty lines in tables. *Outcome: partial* (`C169_definition_partial`, `C169_file_partial`, `C169_unreadable_violated`, `C169_twice_violated`, `C169_blank_violated`). The code violates it: values that cannot be read, repeated tables and empty lines in tables are not noticed (witnesses). Proved for well written files: every definition is read as written.
- **C170 Refining the boundary keeps the outline of the domain.** Whole/Outline: the outline as list of segments, pieces of a segment, winding numbers and disjointness of cut segments; refinement of the front by induction over its edges; composition with C155. Violated for size functions that jump (C31): the boundary leaves the domain. *Outcome: partial* (`C170_pieces`, `C170_simple`, `C170_code_partial`, `C170_graded_partial`, `C170_mesh`, `C170_simple_violated`). C170_simple_violated: for a size function that jumps, the code divides a side at a point outside of it, so that the boundary of the mesh overlaps itself. Proved for all subdivisions at points between the ends in order (C170_pieces, C170_simple, C170_mesh); the subdivision of the code is of this kind if the sizes vary by less than the factor 3/2 (C170_code_partial) or change by at most a fifth of the distance (C170_graded_partial).
- **C171 Domains built from convex shapes have an outline that does not touch itself.** Whole/Convex, Whole/Holes, Whole/Shapes: winding number of a convex polygon by fan triangulation, disjointness of the sides by orientation, holes by separating lines; build of several boundaries over the shared vertices; rectangles and regular polygons are convex. *Outcome: proved* (`C171_convex`, `C171_domain`, `C171_progress`, `C171_rectangle`, `C171_circle`, `C171_mesh`). C171_mesh is relative to a session of layers and steps that ends with an empty front (C160, C161) and to a subdivision as in C170.
- **C172 The domain of a mesh definition is the one drawn in it.** Whole/FileModel, FileSpec, FileLemmas, FileStart: a specification of what a definition draws (corners of shapes, tables, orders), induction over the boundaries of a definition over the shared vertices; the check of the domain passes by simplicity of the outline. Violated for shapes outside of the vertices of the tables, circles with fewer than three corners, and an index one too large. *Outcome: partial* (`C172_domain`, `C172_table`, `C172_progress_partial`, `C172_prepared`, `C172_extent_violated`, `C172_circle_violated`, `C172_index_violated`). Proved for all definitions that draw a polygon with holes (Drawing), under the conditions of Constructible. The code violates the rest: shapes outside of the square given by the tables of vertices are undefined behaviour, circles with fewer than three corners leave an empty boundary without notice, and an index one too large for an exterior table is not reported.
- **C173 An input file leads to a complete mesh of what it draws.** Whole/FileProps: C169 (text), C172 (domain and preparation), C161 and C170 (the run) joined. *Outcome: proved* (`C173_start`, `C173_mesh`, `C173_triangles`). The first definition of a file. The run is taken to be good in the sense of GoodRun (conditions of C140, C150, C159, C161); C173_triangles needs the conditions on the triangulation only.
- **C174 The sizes of a file divide its boundary properly.** Whole/SizeModel, SizeSpec, SizeLemmas: the size function of the domain of a definition; induction over the boundaries for the sizes of the vertices; C27, C31 (factor 3/2 and graded sizes), C32; composition with C173. *Outcome: proved* (`C174_size`, `C174_divides`, `C174_ends`, `C174_start`). Bounds of the size function of a domain (C174_size); the refinement divides every side properly (C174_divides) and ends (C174_ends) under the stated condition on the sizes; from the text of a file to the prepared mesh with this size function (C174_start). For sizes that jump see C31_partition_violated.
- **C175 Sizes written for single vertices hold there.** Whole/LocalLemmas, LocalProps: induction over the boundaries of a definition for vertices at different places; C27 at the vertices. Violated for a corner of a shape that is also listed as a vertex. *Outcome: partial* (`C175_vertices_partial`, `C175_sizes_partial`, `C175_sides`, `C175_shared_violated`). The code violates the statement for vertices at the same place: a corner of a shape that is also listed in the table of vertices keeps what the list says, a size written for the shape is dropped (C175_shared_violated). Proved for vertices at different places (C175_vertices_partial, C175_sizes_partial); the bound by the sides holds always (C175_sides).
- **C176 The element size of a definition is the expression written in it.** Whole/ExprModel, ExprProps: the static expression as a state, induction over the definitions. Violated for texts that are no expressions, for two size functions in one program, and without the expression library. *Outcome: partial* (`C176_sizes_partial`, `C176_unparsable_violated`, `C176_library_violated`, `C176_prefix_violated`). The code violates this: a text that is no expression leaves the size function of the definition before in use without a message (C176_unparsable_violated), size functions made earlier change when a later one is made (C176_library_violated), and without the expression library everything behind the first number is ignored (C176_prefix_violated). Proved: while a definition is worked on, its own expression is in use if it is one.
- **C177 The preparation links a new mesh with the meshes beside it.** Whole/MultiModel, MultiLemmas, MultiSearch, MultiSpec, MultiProps: the search for neighbour edges with addresses refines Fr.nbrEdges; induction over the front edges for the links; composition with C115. *Outcome: proved* (`C177_links`, `C177_beside`). For neighbour edges that cover the shared edges of the domain (DomainData) and lie on one edge of the domain each. C177_beside gives the conditions of C163; that the domains are disjoint and the other edges meet in end points only is assumed.
- **C178 An input file with several mesh definitions leads to one conforming mesh of everything drawn.** Whole/SeveralModel, SeveralSpec, SeveralLemmas, Marks, ReadyLemmas, SeveralProps: induction over the definitions; no function but the linking makes links and none marks edges as fixed; sides cut by the edges of the mesh before; C172, C177, C163 and C169. *Outcome: proved* (`C178_next`, `C178_mesh`, `C178_file`). Runs in which nothing gets in the way are described by GoodRuns (as in C163 and C173); that different ends of boundary edges lie at different points is asked of each intermediate mesh (two domains may touch in a single point), that no links and no fixed boundary edges remain is proved. All definitions are read before the first mesh is made. SeveralExample.lean: a file with two squares, the second one's left side divided by the refined first mesh.
- **C179 Triangles that overlap are reported exactly.** Whole/OverlapSpec, Overlap, OverlapProps: convex polygons; the way from an inner point to a corner outside leaves through a side; if no sides meet one element is in the other and its centroid is an inner point. *Outcome: proved* (`C179_triangles`, `C179_skipped`, `C179_accepted`). exact for triangles with positive area if the tolerance is below the resolution of the points
- **C180 An accepted triangle overlaps no quad.** As C179; a side of the quad with inner points in the triangle has an end in the triangle, which the vertex test reports, or is a side of the triangle. *Outcome: proved* (`C180_accepted`). for convex quads in the range of the checks with corners in the range
- **C181 Elements that overlap a quad are reported exactly.** Whole/OverlapModel, OverlapProps: as C179 with the premise that common corners are ends of sides of both; witnesses without it. *Outcome: partial* (`C181_triangle_quad_partial`, `C181_quad_triangle_partial`, `C181_quads_partial`, `C181_vertex`, `C181_edge`, `C181_triangle_quad_violated`, `C181_quads_violated`). violated by the code: elements with two opposite corners of a quad in common can overlap without being reported; exact if common corners are ends of common sides; vertices and edges in full
- **C182 The mesh is recovered from the redirected output.** Console/: the output as finished lines and an unfinished one; invariant over the events. *Outcome: partial* (`C182_statement`, `C182_recover`, `C182_program`, `C182_read_back_partial`, `C182_violated`). The full statement is violated (C182_violated): the redirected output also has the lines of the log. Proved: dropping marked lines leaves exactly the meshes (C182_recover, C182_program, C182_read_back_partial), and what a log statement writes (C182_statement). Premises: messages are single lines.
- **C183 Progress bars never run backwards.** Console/: induction over the updates. *Outcome: proved* (`C183_bars`, `C183_covers`, `C183_complete`). Percentages strictly increase, at most 100 bars, bars cover each other, a complete mesh shows 100 percent.
- **C184 A domain can be edited and stays sound.** Domain/EditModel, EditSpec, EditLemmas, EditProps: invariant by induction over the calls; witnesses for the calls that break it. *Outcome: partial* (`C184_edit_partial`, `C184_adds`, `C184_walk`, `C184_boundary_violated`, `C184_fixed_violated`, `C184_vertex_violated`). The code violates the full statement: remove_boundary, remove_fixed_vertex and remove_vertex leave dangling pointers or stale entries (witnesses in the _violated theorems). Proved for careful histories and for histories that only add, as in the application.
- **C185 Parameters are found under the name they were registered with.** Config/RegModel, RegProps: registrations as a list; induction over it; the accesses of the application one by one. *Outcome: proved* (`C185_register`, `C185_lookup`, `C185_app`, `C185_accesses`, `C185_config`). A look-up with another type than that of the registration is undefined in the code and a distinct outcome in the model.
- **C186 Refinements asked for in a file are carried out.** Whole/CountSpec, CountProps: a refused refinement would leave the links, but the final mesh has none (C178); counts of C56. *Outcome: proved* (`C186_first`, `C186_next`, `C186_quads`, `C186_file`).
- **C187 Elements have the colour of the definition in whose region they lie.** Colours are followed through every step (all facets of a mesh carry the colour of the mesh until it is merged); the signed sides of the elements of one colour are compared along merging, refinement and smoothing, and the winding number of these sides counts the pieces of the colour around a point. *Outcome: proved* (`C187_colours`, `C187_file`, `C187_negative_violated`). for colours that are not negative; C187_negative_violated shows that negative colours are replaced in merges
- **C188 Boundary edges have the marker of the drawn side on which they lie.** The free edges of the initial front are parts of the domain edges (or of the neighbour edges along them) with their markers; every later step only divides boundary edges or leaves them, keeping the marker; a merge keeps boundary edges of both meshes. Induction over the definitions of a run. The edges of a domain carry the markers written, if the orientation is not changed or the markers agree. *Outcome: proved* (`C188_markers`, `C188_file`, `C188_shifted_violated`). Under the stated condition that markers are not shifted when a boundary is built (all markers equal, or corners listed in the kept order); C188_shifted_violated shows that without it the code puts a marker on another side (see C19).
- **C189 Every drawn side is found on the boundary of the mesh with its marker.** The converse of C188: the pieces of a divided edge cover it (front, splits, refinement), unlinked boundary edges survive a merge, and linked ones lie on sides of both definitions. Each drawn side is an edge of the domain with its marker; if it has neighbour edges, these cover it. *Outcome: proved* (`C189_kept`, `C189_file`). for definitions whose markers are not shifted by a change of orientation (see C19 and C188_shifted_violated); the exception at sides of other definitions is stated
- **C190 Markers and colours in the exported files are those of the input file.** Composition of C187, C188 and C189 with the read-back theorems of the writers (C66, C125): the numbers in the rows are positions in the list of vertices, the pointers set up before writing are live for convex elements, and the cells are the elements in order with their colours. *Outcome: proved* (`C190_text`, `C190_vtu`). The text file for final meshes whose elements are convex and not too small, as stated (SoundShapes; without it edges may be listed as front, see C168_violated); markers as in C188 and C189, colours that are not negative as in C187.
- **C191 A printed quad tree shows cells that tile its extent and hold its items.** Induction over the tree: children split the square; the printed rows are the unsplit cells in order, and the reader of the text format inverts each row. *Outcome: proved* (`C191_printed`). all histories; the rounding of the output is part of the statement
- **C192 The exit status of the program tells whether all meshes were made.** The status is a function of the loop over the definitions (C137); the induction includes exceptions. *Outcome: partial* (`C192_status_partial`, `C192_nothing_violated`). Violated by the code: status 0 without a file and for files without a complete definition (C192_nothing_violated). Proved: with a readable file the status is 0 just if all definitions that are found give a mesh, otherwise 1.
- **C193 Printed parameters can be used as input.** Round trip: the printed lines through the model of the reader; the cells of a printed row by induction. *Outcome: proved* (`C193_line`, `C193_table`, `C193_shape`, `C193_key_needed`). All kinds; C193_shape: the conditions on the shape hold for all parameters of the application. C193_key_needed: without the condition on keys it fails.
- **C194 A new mesh has room for its domain.** The loop computes the greatest coordinate; then C04 for the square of that size. *Outcome: proved* (`C194_room`, `C194_asked`, `C194_given`). C194_given: with a given extent vertices can be outside, and a domain with all vertices at the origin has an empty square.
- **C195 From the input file to the exported file.** Output/FileProps: composition of C178 (the run of the program), C167 (the VTU file) and C168 (the text file). *Outcome: proved* (`C195_vtu`, `C195_near`, `C195_text`). Composition over the whole program; the exact statements hold for coordinates that the format can show, C195_near bounds the difference otherwise; without these conditions the tiling is false (C167_violated).
- **C196 The settings of a search tree can be changed while it is empty.** QuadTree/SetupModel, SetupSpec, SetupProps: refinement to a view with settings and a list of items; an empty tree is not split by the invariant of C03. *Outcome: proved* (`C196_session`, `C196_queries`). Refinement for every sequence of calls; a failed assertion is a distinct outcome.
- **C197 A moved mesh is the same mesh at its new place.** Move/Model: cells with addresses; induction over the stored tree shows which cells the destruction of the source ends. *Outcome: partial* (`C197_unsplit_partial`, `C197_small_partial`, `C197_violated`, `C197_edges_violated`, `C197_edges_partial`). The code violates it for every split tree and for every edge list that is not empty (C197_violated, C197_edges_violated); proved for trees that are not split and lists that are empty when moved.
- **C198 The meshing does not depend on the place, the direction and the unit of length.** Similarities of the plane x -> c x + t: twice the signed area and scalar products grow by |c|^2, so all tests agree for a tolerance that grows with it; for motions with the same tolerance. The tolerance of the code is a constant: witness for every tolerance, and no triangle is made in small squares. *Outcome: partial* (`C198_moved_partial`, `C198_fitting_partial`, `C198_unit_partial`, `C198_measures`, `C198_unit_violated`, `C198_small_violated`). The code violates it for the unit of length: the tolerance of orientation is a constant (C198_unit_violated), and in squares with sides below about a ten-thousandth of the unit no triangles are made (C198_small_violated). Proved: place and direction have no influence (C198_moved_partial), nor has the unit if the tolerance grows with it (C198_fitting_partial) or if all triangles are resolved in both units (C198_unit_partial); distances, areas and comparisons follow (C198_measures).
- **C199 The mesh of a shifted or turned domain is the shifted or turned mesh.** Simulation: the map of states that changes only coordinates and the area counter commutes with every operation of the mesh, with every check (by C198) and with every turn of the loops. The search trees are treated in the same way for shifts and stretchings. *Outcome: proved* (`C199_similar`, `C199_moved`, `C199_tree`, `C199_order_violated`). Simulation for generate_elements and generate_elements_exhaustive (C199_similar, C199_moved) in surroundings that follow the domain (Follows), and for the search trees (C199_tree). The code keeps the squares of the trees at the origin, so that the order of reported items, which is a condition of the theorem, can change with the place (C199_order_violated). Later stages are C200, quad layers C201.
- **C200 Clean-up, refinement and smoothing of a moved mesh give the moved result.** Simulation as in C199 for the later stages: the map of states commutes with every operation; displacements turn with the mesh, and the sum over the neighbours does not depend on the neighbour with which the order by atan2 begins. *Outcome: proved* (`C200_refined`, `C200_merged`, `C200_cleaned`, `C200_moved`, `C200_smoothed`, `C200_unit_violated`). Simulation for the refinement (C200_refined, without a tolerance), for the merging of triangles along a given list of edges (C200_merged), for the clean-up (C200_cleaned with a tolerance that fits, C200_moved for turns and shifts) and for the three smoothers (C200_smoothed) in surroundings that follow (SmoothFollows: the order of the neighbours is the same up to the one it begins with). With the constant tolerance of the code the unit matters: C200_unit_violated.
- **C201 The quad layers of a moved domain are the moved quad layers.** Simulation as in C199 and C200 for the walk along the front, heights, projections, elements, gaps and the search for the next start; normals turn, heights have the factor of lengths, ratios stay. *Outcome: proved* (`C201_similar`, `C201_moved`, `C201_far_violated`). Simulation for QuadLayering: C201_similar for all similarities in surroundings that follow (LayerFollows), C201_moved for shifts and turns without any other change. The initial distance 1E+10 in EdgeList::get_closest_vertex is a constant, so that the unit matters in the code: C201_far_violated.
- **C202 Triangles are merged into quads in the order of their shortest sides.** Stable sort by keys: unique list. Invariant of the merge loop: every new quad comes from two triangles along a removed edge worked off before, and its sides are sides of these triangles; so a facet that is a quad when an edge is reached names the earlier pair. Place: keys grow by one factor. *Outcome: proved* (`C202_order`, `C202_greedy`, `C202_shortest`, `C202_placed`). Order of merging: exactly one list meets the description of the sort (C202_order); greedy choice (C202_greedy, C202_shortest) for consistent counter-clockwise meshes with the neighbour pointers of setup_facet_connectivity; independence of place, direction and unit (C202_placed). Lengths are compared by their squares, exact coordinates.
- **C203 A new place of a vertex is refused if another element holds it.** Completeness of in_on_triangle and in_on_quad (C13) for the items that the range query reports; witnesses for the misread corner and for the range. *Outcome: partial* (`C203_place_partial`, `C203_quad_violated`, `C203_far_violated`). The code violates it: C203_quad_violated (the fourth corner of a quad is read from v3), C203_far_violated (range of twice the displacement). Proved for triangles in reach and for one half of quads in reach. The function has no caller in the library.

## Recorded disagreements between the code and the listed properties

- **C06** A user expects get_nearest on a non-empty container to return an item for any location. (The code returns nullptr when all items are farther than twice the leaf size and dereferences a null leaf when the location is outside the extent.)
- **C07** After update(item, xy_new) returns true, the container behaves as if the item had been removed and re-inserted at xy_new: it is found by queries at its new location exactly once and can be removed afterwards.
- **C09** A predicate passed to get_items decides which stored items of overlapping cells are reported. (False in the code for split trees: the recursion drops the predicate.)
- **C19** The marker given for the i-th segment (vertex i to vertex i+1) ends up on the edge between these two vertices regardless of the orientation of the input. (False when the loop is reversed: markers shift by one segment.)
- **C21** split_edge replaces an edge by two edges through a new vertex on the segment, keeps the chain closed, keeps markers and properties and keeps area(). (area() is stale/double counted in the code for oriented lists.)
- **C22** split_edge documents that s -> 0 splits near v1; the new vertex should be v1 + s (v2 - v1). (The code uses s v1 + (1-s) v2; only s = 1/2 agrees.)
- **C24** EdgeList::is_inside documents that points on edges are inside. (False: e.g. points in the middle of the left side of a rectangle.)
- **C25** Domain::extent() returns minimum and maximum of the vertex coordinates. (False: it always contains the origin.)
- **C26** intersects_self()/intersects_edgelist() report true iff two edges intersect. No false alarm holds; (completeness is false in the code because edges are looked up by centroid only.)
- **C28** export_size_function prints Nx*Ny values, each grid value exactly once in row-major order, ten per line (last line shorter).
- **C31** Refining a front edge inserts vertices on the open segment in strictly increasing order from start to end, the first and last sub edge keep the end points and the marker, and every sub edge has positive length. For a constant size function h every sub edge has a length of at least h/2 and less than 3h/2. (False for general size functions: with a size that jumps along the edge an inserted vertex can land outside the segment.)
- **C36** Every advance step preserves that every vertex has as many incoming as outgoing front edges. (True when the side edges taken from the front run against the new triangle; false in general: the code looks side edges up without direction, and where two front edges connect the same vertices in opposite directions (a slit) it may take the wrong one.)
- **C40** After every advance step the three vertices of the new triangle carry on_front iff they still have a front edge.
- **C44** The base edges of a quad layer are exactly the front edges from the start edge to the end edge in front order, each once. (False when start and end edge coincide: the whole loop is taken and the edge is taken twice.)
- **C46** find_next_layer_endings reports success only with vertices that are on the front. (False: the last inspected vertex is used even when it is not on the front.)
- **C50** clear_double_quad_edges examines each quad that has not been scheduled for removal. (False: after the first scheduled quad all later quads are skipped.)
- **C52** merge_degenerate_triangles replaces the three triangles around an interior non-fixed vertex by one triangle of the same total area with counter-clockwise orientation.
- **C55** After merging, Mesh::area() of the receiver equals the sum of both areas. (False: the stored area is not updated.)
- **C60** If all quads are convex before smoothing they are afterwards. (False: only two of the four corners are checked.)
- **C61** With quad_layer_smoothing enabled the displacement of a layer vertex has no component towards the nearest boundary. (False: the stored directions are always zero because they are appended behind the preallocated entries.)
- **C64** merge_meshes returns true iff the donor was merged into the receiver and removed. (False: it returns true when the meshes share no interface.)
- **C68** Two vertices with different coordinates are written differently. (False: five decimals.)
- **C69** The exported file name ends with the dot-extension of the format; a name that already has it is kept. (The name "txt"/"vtu" itself is not extended.)
- **C73** Reading a matrix definition without lines yields no rows. (False: it yields one row of zeros or of the previous definition.)
- **C74** Every vertex index accepted by the application for exterior/interior boundary edges and fixed edges refers to an existing vertex. (False for exterior edges: index n is accepted.)
- **C75** VecND operations are the component-wise vector space operations; == holds iff the vectors are equal (exact arithmetic); sum() is the sum of the entries. (sum() is false for non-integral entries: it accumulates in int.)
- **C76** After a.swap(b) a equals the old b and b equals the old a. (False: the dimensions of b are not exchanged.)
- **C81** When prepare_mesh returns false, no mesh has changed; it returns false exactly if the mesh is not empty or the domain check fails. (The branch for an invalid front is dead; its clean-up loop removes list nodes while iterating over the list, which is undefined behaviour with at least one vertex.)
- **C83** After any sequence of Boundary::add_edge calls that do not throw, consecutive edges of the boundary share a vertex. (False: Boundary::add_edge hides EdgeList::add_edge and appends without the connectivity check.)
- **C87** After Front::init_front a mesh vertex is flagged on_boundary iff it is a vertex of a domain boundary or of a neighbour mesh boundary. (False: end points of fixed interior edges are flagged as well.)
- **C88** Moving a FrontInitData object yields an object that initialises the same front. (False: the move constructor and move assignment drop vertices_ and vertex_ids_, and init_front then reads out of bounds.)
- **C89** Every index pair in range addresses its own entry of a matrix; resize(r,c) yields an r x c matrix in which every old entry still in range keeps its value and place, new entries are zero. (False when the number of columns changes.)
- **C92** The shape factor lies in (0,1] for valid triangles and is 1 for equilateral ones, as documented. (False: the normalisation constant is half of what is needed, every equilateral triangle gets 1/2, the maximum; a min_cell_quality above 1/2 rejects every triangle.)
- **C93** Before the advancing front loop switches on the wide search, every current front edge has been tried with the narrow search. (False for the first pass: the loop starts with the edge that was first before sorting, and skips the first edge of the sorted front.)
- **C94** generate_elements on a mesh without remaining front edges returns and leaves the mesh as it is. (False: the null base edge is dereferenced, in debug builds an assertion fails.)
- **C95** exhaustive_search_triangle tries every vertex of the front as third corner before it gives up on a base edge. (False: only the vertices on the loop of the base edge are tried, so a ring-shaped gap is never closed.)
- **C96** check_mesh_validity returns true only for meshes in which every interior edge has elements on both sides and every boundary edge has one. (False: one element per edge suffices; a mesh with an unmeshed hole passes and is then cleaned up as if it were complete.)
- **C97** No clean-up function removes a vertex marked as fixed. (False: the double-edge functions remove the middle vertex without looking at the flag; merge_degenerate_triangles respects it.)
- **C98** An element that replaces others of one colour gets that colour. (False: the double-edge functions and MeshCleanup::merge_triangles_to_quads use the colour of the mesh, Tri2Quad merges triangles of different colours; merge_degenerate_triangles keeps the colour.)
- **C99** After setup_facet_connectivity every facet pointer of an interior edge is null or refers to an element of the mesh. (False: the function never resets a pointer, those to removed elements stay.)
- **C100** Elements created by clean-up functions are active if the elements they replace were, so that later steps test against them. (False for merge_degenerate_triangles.)
- **C101** Every quad made from two counter-clockwise triangles by the merging step is convex. (False: only the angles opposite to the removed edge are.)
- **C102** A vertex made by the refinement is fixed only if all vertices it is interpolated from are fixed, so that a single fixed vertex does not freeze its neighbourhood. (False: one fixed end or corner is enough.)
- **C106** A merge in which one of the meshes has no elements is refused. (False: an unmeshed donor is refused, an unmeshed receiver is not; the interface then remains as a pair of boundary edges inside the merged mesh and success is reported.)
- **C109** The Laplace displacement of an interior vertex points to the mean of its neighbours. (False next to quads: vertices connected by an edge count twice, vertices across a quad once; true with triangles only.)
- **C110** After every iteration a vertex is at most as far from its target as before. (False: the sign of the factor alternates, so every second iteration moves vertices away.)
- **C111** A vertex whose neighbours lie at equal angles around it is not moved by torsion smoothing. (False: every neighbour is listed once per element, so the angle to one of its own copies is zero and the rotations do not cancel.)
- **C112** An algorithm accessor called with a mesh that is not (or no longer) registered terminates the program. (False: if the last request of the group was for that mesh, the old object with its dangling reference is returned.)
- **C113** The algorithm returned for a valid mesh refers to the domain that was given when the mesh was created. (False if a new mesh is created in the memory of a destroyed one: the old object with the old domain is returned.)
- **C114** A mesh returned by new_mesh and valid for the generator has been prepared, i.e. holds the boundary of its domain. (False: the result of prepare_mesh is ignored.)
- **C116** Every fixed edge of the domain is (after subdivision) a chain of edges of the mesh. (False: prepare_mesh does not store fixed edges, only their vertices; a fixed diagonal of a square can be replaced by the other diagonal.)
- **C119** Quad layers take from the region enclosed by the front what they add to the mesh: element area plus enclosed area stays the same, the area counter follows, and every point is covered by the elements and enclosed by the front as often as before. (False: the layer may move vertices of the neighbouring front edges, which changes the enclosed area. True if nothing is moved.)
- **C120** The mesh stays consistent and every vertex that was in the mesh (in particular on the domain boundary) keeps its place. (False: the neighbour vertices of the ends are moved.)
- **C121** All elements made by quad layers have positive area and the quads are convex. (False for convexity: a quad may have a reflex corner.)
- **C122** When a layer splits an edge, everything that uses the edge is split with it; no vertex lies within a side of an element. (False: the side of an element of an earlier layer is not split.)
- **C123** The height of every projected base edge is at most the length of the edge. (False after height smoothing.)
- **C124** For every mesh with a boundary, positions of the ends, height, growth rate and number of layers, generate_elements dereferences no null pointer. (False: when a layer fills the domain, the next one searches an empty front.)
- **C127** A matrix definition is accepted only if no line has more entries than the matrix has columns, so that the i-th entry of a line always gets into column i. (False: entries of one line flow into the next row.)
- **C128** For keys that may occur several times (quad layers, interior boundaries), every line of the block with the key is processed or an error is reported. (False: a line that cannot be read ends the loop and hides all later ones.)
- **C129** Text behind a # contributes nothing to a parameter. (False inside matrix definitions.)
- **C130** A blank line inside a matrix definition is no row. (False: with default values it becomes a row of default values, for example a boundary vertex at (-1,-1).)
- **C131** get_value(i,j) gives an answer only for i < columns() and j < rows(). (False: it answers with another entry.)
- **C132** A scalar query takes the first line with the key in the rest of the block and converts the text behind the last occurrence of the key, up to a comment and without blanks; it fails exactly if there is no such line or the text cannot be converted, and the next query continues behind this line.
- **C133** found(name) tells whether the parameter is defined in the current block. (False: it stays set from an earlier block, and get_value returns the value of that block.)
- **C135** The error messages for missing mandatory parameters contain the number of the mesh. (False: the number is added to a pointer; characters of the message are lost, and for large numbers the behaviour is undefined.)
- **C136** The extent estimated for a domain is such that all vertices of its definition lie in the search tree. (False for fixed vertices and boundary shapes; true for the list of boundary vertices.)
- **C137** A run processes every mesh definition of the file once, in order, and is successful exactly if every mesh was generated completely. (False for a definition without its end line: it is skipped and the run is successful.)
- **C138** A mesh definition with no or with several exterior boundaries is rejected. (False: the first kind in a fixed order is used, the others are ignored; none at all is accepted.)
- **C140** If the initial front is simple (closed, edges of positive length that meet only in end points, winding once around a region and not at all around the rest), the tolerance is below the resolution of the mesh and no front edge that meets a new triangle lies outside the range of the checks (for instance because edges are at most 4/3 of the size function), then after every sequence of front updates the front is simple again, every new triangle meets the front of its time only in shared edges and corners, and its side edges are looked up in the right direction. Without the range condition the checks accept a triangle that is crossed by a long front edge.
- **C145** If check_completeness returns true, the elements cover the domain. (False: the difference of the areas is related to the extent of the domain, which always reaches to the origin, so the empty mesh passes for a domain far away from it; facet pointers may be stale, C99. True for meshes with all sides on edges and no stale pointers: then the mesh is conforming and its elements tile the region bounded by its boundary edges.)
- **C147** The angles stored for a simple counter-clockwise quad are its interior angles, they sum to 2 pi, and the exported max_angle is its largest interior angle. (False: acos never exceeds pi, so a re-entrant corner is reported with the complement of its angle; an arrow head with an inner angle of 270 degrees is exported with max_angle 90. True exactly for quads without re-entrant corners.)
- **C148** Shape factor and quality of a quad lie in (0,1] and the best value 1 is reached. (False: the bound is 3.464/4 = 0.866, attained exactly by squares. True: both are positive, the quality is at most the shape factor, squares and only squares are best.)
- **C149** Quad::is_valid accepts exactly the simple quads listed counter-clockwise. (False: crossed quads of positive signed area are accepted. True: it accepts exactly the quads with positive signed area and four proper sides, hence all simple counter-clockwise quads and no clockwise one; the stored circle encloses all corners.)
- **C159** Smoothing of a complete mesh with quads leaves elements that tile the domain.
- **C164** A mesh definition with quad layers beside an already generated mesh: the layers keep all interface edges with their links to the other mesh, so that the meshes are merged afterwards.
- **C167** The VTU file of a conforming mesh can be read; its cells form a conforming mesh whose outer sides are the boundary edges, and point i is vertex i up to half of the fifth decimal. If the boundary has at most five decimals, the areas of the cells add up to the area of the domain, and the cells tile the domain. This holds for what a run of the application leaves.
- **C168** In the text file of a complete mesh no edge is left in the section FRONT; every row of an interior or boundary edge names the element on its left (and right), every row of neighbours the elements across the sides of the element and -1 exactly at the boundary; every side of an element is exactly one edge.
- **C169** For every input file that consists of mesh definitions whose entries are single lines or tables in any order, with comments and other lines in between, the application gives to the meshing exactly the values that are written: output names, size function, boundary vertices, fixed vertices, boundaries of all kinds, fixed edges, quad layers, colour, algorithm, refinements and smoothing, with the documented values for what is not written. Nothing of one definition gets into another, and what cannot be read is reported.
- **C170** The boundary edges of a prepared mesh are the boundary edges of the domain (or the edges of a neighbour mesh in their place), each cut at points between its ends in order. So the boundary of the mesh bounds the same region as the domain, and if the boundary of the domain does not touch itself, neither does that of the mesh; the elements of the finished mesh then cover the region of the domain exactly once.
- **C172** The domain that the application builds for a mesh definition has the vertices, sizes, boundaries, markers, fixed vertices and fixed edges that are written: the exterior boundary counter-clockwise and the interior boundaries clockwise, whether given by coordinates, by a shape, by a file or by a table of edges. It can be built whenever the definition draws a polygon with holes, its area is that of the polygon without the holes, and its mesh is prepared successfully if the outline does not touch itself. What does not draw a domain is reported.
- **C175** The vertices of the domain of a mesh definition are those written in it, each with the size and range written for it. The size of the domain at a corner of a polygon or at a fixed vertex is at most the size written for it, and at the corners at most the length of the sides that meet there.
- **C176** While a mesh definition is worked on, the size function of its domain has the value of the expression written in this definition. A text that is not an expression is reported. A size function that was made once keeps its values.
- **C181** The tests of quads against triangles and quads give true if and only if the elements have an inner point in common or a corner of one lies on a side of the other between its ends. A vertex is reported if and only if it is no corner and in the quad or on a side. A front edge that passes through the quad is reported by the test against it or its ends, unless both ends are corners. (False if two opposite corners of the quad are common corners.)
- **C182** The program is used as `TQMesh file > mesh`. If meshes are written to the console, the redirected output is the mesh. (False: the output also has the lines of the log and can never be read as a mesh.) Dropping the lines that begin with the escape character or with # leaves exactly the meshes written, in their order, and reading them gives back the mesh. A log statement of an enabled level writes one line, one of a disabled level nothing, errors are always written.
- **C184** After any sequence of calls that add or remove vertices, fixed vertices, fixed edges, boundaries and boundary edges, every edge of the domain ends in vertices of the domain, the vertices point to exactly the edges that end in them, and the walk along a boundary looks at no destroyed edge. (False: remove_boundary leaves vertices that point to destroyed edges, remove_fixed_vertex leaves a fixed edge at the removed vertex, remove_vertex of a fixed vertex leaves it among the fixed ones.) It holds if no vertex or boundary in use is removed, in particular if the domain is only added to, as the application does.
- **C187** For an input file with several mesh definitions, every element of the final mesh that covers a point has the element colour of a definition whose region contains that point, and every definition's region is covered by elements of its colour. This holds after quad layers, triangulation, improvement, quad merging, merging of the meshes, refinement and smoothing. Colours must not be negative: negative ones are replaced when meshes are merged.
- **C188** Each boundary edge of the final mesh of an input file lies on a side that is drawn in one of the mesh definitions, and has the marker written for this side: in the row of the table, beside the corner where the side starts, or for the whole shape. This holds after the division of the boundary, quad layers, triangulation, improvement, quad merging, merging of the meshes, refinement and smoothing, for boundaries in which the code does not shift the markers: all markers are the same, or the corners are listed in the order in which they are kept (counter-clockwise outside, clockwise inside; see C19 for the others).
- **C192** The program ends with the status 0 just if it was given a file that can be read, with at least one mesh definition, and every definition gave a mesh; otherwise with 1, also if an exception is thrown in any of the definitions. Arguments behind the first one have no influence. (False: without an argument, for a file without definitions, and for a definition without its end line the status is 0 although no mesh was made.)
- **C197** Meshes, containers and edge lists have move constructors: after a move and the end of the source, the new object has the items of the source, its searches find them, its edges belong to it, and it can be destroyed. (False: the search tree is copied with pointers to cells that the source still owns, so that for every split tree the cells are deleted twice; the edges still refer to the old list, so that none is found in the new one. It holds for objects that are moved while they are empty, which is what the mesh builder does.)
- **C198** The tests of geometry (orientation, points in segments, triangles and quads, crossing and intersecting segments, triangles and quads) give the same results if all points are shifted, turned or written in another unit of length; distances, areas and the comparison of points follow the unit. So a domain is meshed in metres as it is in millimetres.
- **C199** If a domain with its front, its size function and its boundary is shifted or turned, and the search trees report items in the same order as before, then the meshing loops (with any limit of elements, also the exhaustive ones) have the same outcome, make the same elements at the new place, and the same area is counted. The same holds for another unit of length if the tolerance of the orientation test fits to it. Search trees whose squares are shifted and stretched with their items have the same cells and report in the same order.
- **C200** The search of neighbours, the removal of double edges and of vertices with three triangles, the merging of triangles into quads, the refinement into quads and the Laplace, torsion and mixed smoothing give for a shifted or turned mesh the shifted or turned result, with the same numbers of elements, and they fail for the same meshes. The same holds for another unit of length if the tolerance of the orientation test fits to it; the refinement and the merging need no tolerance. (With the fixed tolerance of the code a vertex that is moved in one unit can stay in another.)
- **C201** If a mesh and the start and end positions of its quad layers are shifted or turned, the generation of the layers (with any number, growth and height) has the same outcome, and the layers are those of the mesh, shifted or turned. The same holds for another unit of length if the tolerance and the largest distance in the search for the start fit to it. (With the fixed largest distance of the code a start that is found in metres is not found in micrometres, and a null pointer is dereferenced.)
- **C203** The check of new places for vertices accepts a place only if it lies in the domain and in no element that does not have the vertex as a corner. (False: for quads the third corner is read for the fourth, so one half of every quad is not seen; elements whose centroid is farther away than twice the displacement are not looked at. It holds for triangles in reach and for the other half of quads in reach.)
