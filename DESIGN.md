# Design of the formal model of regreg

Source: `/repo` (regreg at the pinned commit), read as text. Nothing is executed.

## Layout

- `lean/Verif/Spec/*.lean` — small specifications written without reference to the model
  (minimiser, projection, Fenchel conjugate, adjoint, derivative ...).
- `lean/Verif/Model/*.lean` — the model, function by function, each definition citing file and lines.
- `lean/Verif/Lemmas/*.lean` — auxiliary lemmas.
- `lean/Verif/Props/*.lean` — the property theorems listed in `MANIFEST.json`, each with an
  `example` (or a theorem) showing that its hypotheses are met by a concrete case.

## Modelling conventions

- `float` values are modelled by exact numbers: an arbitrary linearly ordered field `K` where the code only
  uses field operations and comparisons, and `ℝ` where it uses sqrt, exp or log. Rounding, overflow, NaN
  are outside the model, except where a definition says that a NaN / inf is represented explicitly.
- ndarrays of shape (n,) are `List K` where the code loops or sorts, and `Fin n → K` / `ι → K` where the
  code uses whole-array arithmetic.
- Exceptions are values (`Except` / `Option`).
- In-place mutation of shared arrays is modelled by an explicit heap where a property is about it.
- Calls into numpy (sort, argsort, sum, dot, clip) are modelled by their mathematical meaning; for
  argsort every permutation that sorts is allowed.

## Trusted base

- The Lean 4.33.0 kernel, and Mathlib's definitions as far as they occur in the statements.
- Axioms: every theorem in `MANIFEST.json` depends on a subset of `propext`, `Classical.choice`, `Quot.sound`
  (`#print axioms`, checked for all of them); no axiom is added, no `sorry`, no `native_decide`, no `bv_decide`.
- The reading of the Python / Cython / C source documented by the comment on each definition.

## What is modelled

Each definition carries its own citation; this table lists the source lines cited per model file.

| model file | source |
|---|---|
| `Admm.lean` | `problems/admm.py` 11-101 43-45; `affine/__init__.py` 62-75 77-85 87-92 94-98 96-98 157-176 749-766 |
| `Affine.lean` | `affine/__init__.py` 42-123 71-77 90-101 107-111 141-142 143-144 147-149 218-226 220-226 251-252 253-263 257-259 260-261 273-337 319-323 325-329 331-337 339-353 355-374 384-459 427-436 461-476 469-470 472-473 475-476 478-492 494-512 514-572 545-551 550-551 553-557 555-557 559-566 564-567 568-573 574-638 601-607 606-607 609-614 616-624 626-636 632-636 640-713 675-681 680-681 683-690 692-702 693-699 704-712 749-766 756-757 768-787 817-838 831-832 834-835 837-838 840-874 852-856 858-862 864-868 870-874 876-916 893-898 900-904 906-910 912-916 919-944 927-931 933-937 940-944 946-967 951-961 963-967 |
| `Affine2d.lean` | `affine/__init__.py` 9-33 147-148 149-150 151-157 153-155 217-224 250-251 253-263 256-258 259-260 319-323 325-329 331-337 345-352 364-371 469-470 472-473 475-476 485-492 505-512 552-572 613-638 685-713 759-766 780-787 789-815 831-832 834-835 837-838 858-862 864-868 870-874 900-904 906-910 912-916 927-931 933-937 940-944 956-967 969-978 |
| `AffineAtom.lean` | `atoms/__init__.py` 96-197 114-132 119-126 125-126 127-129 170-174 176-182 184-201 189-192 193-195; `atoms/seminorms.py` 34-58 120-123 136-141 525-567 525-546 531-534 539-540 548-559 562-567; `affine/__init__.py` 92-97; `composite.py` 20-40 |
| `AffineCone.lean` | `atoms/cones.py` 40-44 61-83 80-81 137-151 153-203 223-242 244-261 252-255 256-261 303-308 322-328 330-332 359-365 367-369 394-396 398-400 425-429 431-433 459-465 467-476 503-508 510-520 546-551 553-555 581-587 589-592 618-623 625-628 655-660 662-665 679-687; `composite.py` 20-40 41-54 112-118; `atoms/__init__.py` 37-44 114-132 119-126 127-129 170-174 176-182 |
| `AnyLoss.lean` | `smooth/__init__.py` 170-253 302-374; `composite.py` 126-133; `problems/simple.py` 19-39; `glm.py` 35-94 74-94 96-135 766-832; `cox.py` 91-95 199-204; `algorithms.py` 112-113 |
| `AtomHeap.lean` | `identity_quadratic.py` 40-61 70-74; `seminorms.py` 177-202; `svd_norms.py` ; `weighted_atoms.py` ; `slope.py` ; `group_lasso.py` 83-89; `sparse_group_lasso.py` ; `sparse_group_block.py` ; `cones.py` 66-83; `linear_constraints.py` ; `simplex.py` 46-60 159-162; `mixed_lasso.py` ; `problems/composite.py` 36-39 41-47; `block_norms.py` ; `atoms/__init__.py` 114-126 203-226 217-219 |
| `AtomMode.lean` | `atoms/seminorms.py` 34-58 40-43 44-47 48-49 50-55 56-58 129-134 136-141 220-246 262-281 1173-1183 1185-1195 |
| `AtomProximal.lean` | `seminorms.py` 34-58 285-364 339-340 353-355 356-359 361-364; `cones.py` 193-203 |
| `AtomRegression.lean` | `simplex.py` 73-87 103-132 135-256; `problems/simple.py` 19-39 32-39; `problems/composite.py` 112-118 174-181; `seminorms.py` 285-364 451-490; `cones.py` 137-151 193-203 311-345 347-382 384-413 415-446; `group_lasso.py` 191-264; `sparse_group_lasso.py` 66-117; `weighted_atoms.py` 147-192; `slope.py` 64-88; `linear_constraints.py` 102-145 147-183; `mixed_lasso.py` 158-180 182-232; `separable.py` 122-132 134-147 |
| `Basil.lean` | `paths/basil.py` 4-104 31-33 45-51 53-99 106-145 121-143 123-124 |
| `BinaryLinks.lean` | `smooth/binary.py` 37-46 268-506 276-313 315-389 358-359 360-361 365-370 371-372 376-377 382-386 393-425 430-455 459-468 470-501 505-506 508-752 516-553 555-632 597-598 605-611 607-608 612-613 616-617 619-620 625-629 636-670 667-668 675-700 704-713 715-746 750-752; `problems/composite.py` 83-84 |
| `BinaryRegression.lean` | `glm.py` 35-94 74-94 96-135 141-146 150-167 429-497 499-564; `binary.py` 351-355 430-455 590-594 675-700 |
| `BlockMaps.lean` | `affine/block_maps.py` 63-71 73-81 83-91 128-129 139-144 150-152 154-156 158-160; `affine/__init__.py` 789-815 805-806 808-812 814-815; `affine/factored_matrix.py` 20-113 69-74 76-89 91-95 97-101 103-113 |
| `BlockNorms.lean` | `atoms/block_norms.py` 34-53 42-53 77-83 86-93 96-99 126-133 185-192 195-196 199-207 264-269 272-277 280-287 290-302 311-318 375-380 383-388 391-395 398-407 465-470 473-486 489-494 497-502 539-546 577-581 584-589 592-597 600-607; `atoms/sparse_group_block.py` 57-63 79-87 91-104 142-144 182-188 191-198 256-260 264-271 273-352; `seminorms.py` 186-190 1173-1183; `sparse_group_lasso.py` 328-392 |
| `Buffers.lean` | `affine/__init__.py` 331-337 332-333 336-337 963-967; `cox.py` 99-128; `glm.py` 1479-1482; `smooth/__init__.py` 128-141; `problems/composite.py` 21-24 41-47 49-52 112-118 |
| `CheckSubgradient.lean` | `seminorms.py` 136-141 570-615 602-603 606-616 609-610 613-614; `cones.py` 264-300 |
| `ConeContainer.lean` | `problems/container.py` 29-47; `atoms/cones.py` ; `atoms/__init__.py` 37-59 170-174; `doc/examples/isotonic.py`  |
| `Cones.lean` | `atoms/cones.py` 319-324 331-332 356-361 368-369 394-395 398-400 425-428 431-433 467-476 510-520 547-551 554-555 583-587 590-592 619-623 626-628 656-660 663-665 |
| `Conjugate.lean` | `seminorms.py` 177-202 199-200 451-490 1163-1169; `problems/composite.py` 41-54 112-118; `atoms/__init__.py` 203-226 210-213 214-217 218-220 222-225 |
| `ConjugateClass.lean` | `problems/conjugate.py` 16-48 21-23 25-27 51-84 60-62 61-62 63-66 67-70 75-86; `problems/composite.py` 73-74 82-83 209-211 213-224 214-215 217-218 221-224 294-351 295-297 298-301 303-305 314-318 393-396 |
| `Container.lean` | `problems/container.py` 26-50 29-38 49-51 53-78 60-62 65-69 73-75 80-86 89-156 99-145 107-113 108-110 140-145 147-156 148-156 152-155 158-172 164-172; `composite.py` 40-41 43-44 72-73 82-83 125-131 174-181 371-401; `cones.py` 383-418; `atoms/__init__.py` 46-59 |
| `ContainerFista.lean` | `problems/container.py` 89-145 97-145 100-136 100-104 122-136; `dual_problem.py` 58-73 75-79; `composite.py` 97-110 |
| `Cox.lean` | `smooth/cox.py` 19-56 51-56 58-136 91-95 140-194 171-175 199-204 206-215 217-248; `cox_utils.pyx` 82-144 146-218 220-317; `cox_fns.c` 11-41 43-71 73-106 108-142 146-177 179-211 213-245; `smooth/__init__.py` 128-133 |
| `CrossValidate.lean` | `paths/cross_validate.py` 53-54 143-144 |
| `DualAtoms.lean` | `group_lasso.py` 164-188 258-264 290-402 304-337; `sparse_group_lasso.py` 128-157 228-276 237-252 278-301; `seminorms.py` 43-46 52-57; `weighted_atoms.py` 194-201 204-256 213-226 229-236 258-268; `slope.py` 150-199 |
| `DualProblem.lean` | `problems/dual_problem.py` 35-46; `smooth/__init__.py` 58-67 69-73 236-247; `composite.py` 81-86 82-83 84-85; `affine/__init__.py` 140-141 524-537; `cones.py` 87-115 104-145 117-121 131-132 138-142 143-144 407-412 |
| `EpiCone.lean` | `atoms/group_lasso.py` 65-69 70-71 433-747 442-461 463-468 486-501 512-516 536-554 556-558 585-603 606-610 642-660 663-667 700-718 721-725 743-747; `atoms/svd_norms.py` 185-444 193-197 213-222 225-238 240-242 257-265 268-280 303-311 314-327 350-358 361-374 397-405 408-420 441-444; `cones.py` 137-151 153-203 223-261 303-308; `composite.py` 20-54 112-118; `atoms/__init__.py` 37-44 114-132 119-126 127-129 170-174 176-182 |
| `Equality.lean` | `group_lasso.py` 65-67 66-72 70-71 91-97 99-106; `seminorms.py` 34-58 129-134 136-141; `mixed_lasso.py` 46-79 82-88 90-96; `weighted_atoms.py` 42-43 45-51 53-59; `slope.py` 48-51 90-96; `problems/composite.py` 20-47; `sparse_group_lasso.py` 119-127; `cones.py` 35-38 40-44; `linear_constraints.py` 47-51 53-57; `simplex.py` 22-25 27-30 154-157 159-162; `identity_quadratic.py` 33-38 76-87 |
| `Estimators.lean` | `sklearn/base.py` 101-128 240-316 318-353 348-352 355-361 355-360 363-371; `seminorms.py` 285-364 451-488; `simple.py` 19-22 |
| `Fista.lean` | `algorithms.py` 10-17 45-56 45-215 107-110 112-113 117-207 121-127 130-131 135-142 139-141 144-207 151-161 163-177 187-198 199-201 204-207 217-226 228-270 230-232 234-270 236-245 242-245 249-260 249-250 252-255 257-260 261-262 265-267; `problems/simple.py` 17-93 17-39 32-35 37-39 77-93 78-81 83-85 88-93; `problems/composite.py` 73-74 82-83 206-224 209-211 |
| `Gauge.lean` | `atoms/sparse_group_lasso.py` 328-392 351-362 367-378 380-392 384-392 403-412 413-495 413-490 |
| `GlmHeap.lean` | `affine/__init__.py` 739-747; `binary.py` 18-55 91-95 168-172 189-214 199-214 218-227 758-789 775-780 825-829 848-870 875-876 913-921; `glm.py` 35-94 73-94 96-135 140-145 142-143 169-206 208-248 253-262 264-294 296-357 359-426 566-625 627-694 696-763 848-876 912-916 956-960 966-967 971-978 1026-1067 1103-1107 1150-1154 1161-1162 1166-1174 1218-1252 1235-1243 1288-1292 1310-1332 1337-1338 1375-1383; `smooth/__init__.py` 128-133; `composite.py` 73-74 |
| `GroupPath.lean` | `paths/group_lasso.py` 51-54 127-169 185-210 212-225 240-263 268-275 313-320 322-334 336-351 353-367 369-403 392-395 396-397 400-401; `atoms/group_lasso.py` 304-337; `paths/__init__.py` 9-18; `smooth/quadratic.py` 152-162 |
| `HuberizedSvm.lean` | `smooth/losses.py` 18-41 43-70; `smooth/__init__.py` 48-49; `atoms/__init__.py` 28-33 35-36 193-195 |
| `IdentityQuadratic.lean` | `identity_quadratic.py` 40-61 42-49 51-61 51-54 58-61 64-68 94-105 96-97 108-135 111-112 113-116 119-120 140-158 193-210 200-208 238-242 245-256 |
| `Image2d.lean` | `affine/image2d.py` 5-98 47-54 57-63 70-80 85-96 101-209 144-152 157-168 173-184 190-205 238-239 283-284 |
| `Isotonic.lean` | `atoms/_isotonic.pyx` 18-63 31-32 38-61 40-58 44-45 50-56; `atoms/_isotonic_py.py` 9-42 23-41 24-28 28-41 |
| `L2Norm.lean` | `atoms/seminorms.py` 764-808 776-780 783-789 792-799 802-808 |
| `LassoObj.lean` | `paths/lasso.py` 21-69 30-66 74-82 84-115 176-182 184-211 190-195 198-202 250-287 313-325; `paths/cross_validate.py` 52-54 59-97 59-61 63-75 69-70 77-88 90-95; `affine/__init__.py` 40-124 126-176 194-224 226-262 739-747 768-787; `glm.py` 963-964 1158-1159 1334-1335; `binary.py` 186-187 872-873; `smooth/quadratic.py` ; `weighted_atoms.py` 42-43; `paths/__init__.py` 36-40 96-103 96-102 217-372 374-429; `smooth/__init__.py`  |
| `LassoPath.lean` | `paths/lasso.py` 117-159 213-227 298-311 313-325 340-374 355-357 363-365 366-367 369-370 |
| `LinearConstraints.lean` | `atoms/linear_constraints.py` 75-90 122-127 130-132 139-140 160-165 168-170 177-178 184-188; `cones.py` 61-83 679-687 |
| `LossHeap.lean` | `glm.py` 1001-1010 1197-1206 1363-1372; `binary.py` 250-259 901-910 |
| `Losses.lean` | `smooth/glm.py` 35-94 67-94 96-135 208-248 253-262 264-294 296-357 359-426 566-625 627-694 696-763 848-876 864-867 878-931 912-916 933-961 956-960 971-978 980-1013 1026-1067 1042-1046 1048-1051 1053-1060 1069-1126 1103-1107 1128-1156 1150-1154 1166-1174 1176-1209 1218-1252 1235-1243 1254-1308 1288-1292 1310-1332 1342-1373 1375-1383 1387-1392; `smooth/binary.py` 18-55 37-46 57-143 91-95 101-117 145-184 168-172 174-182 189-214 205-208 209-213 218-227 229-262 758-789 775-780 791-846 825-829 848-870 880-911 913-921 925-929; `smooth/__init__.py` 43-52; `problems/composite.py` 73-74 83-84 |
| `MixedKKT.lean` | `atoms/mixed_lasso.py` 406-453 406-430 432-453; `atoms/mixed_lasso_cython.pyx` 138-318 138-171 173-273 258-270 275-318; `atoms/group_lasso.py` 751-767 769-801 |
| `MixedLasso.lean` | `atoms/mixed_lasso_cython.pyx` 16-58 35-40 41-44 46-56 60-95 75-80 81-84 86-93 97-135 112-120 275-318 290-305 320-380 339-344 352-356 364-367 382-451 403-408; `group_lasso.py` 58-81 65-78 191-209 212-233 236-255 258-264 340-357 360-379 382-402 536-554 585-603 642-660 700-718; `mixed_lasso.py` 61-74; `sparse_group_lasso.py` 66-81 95-113 273-276 303-326; `weighted_atoms.py` 175-178 |
| `MixedObj.lean` | `atoms/mixed_lasso.py` 46-79 61-62 81-87 89-95 116-131 142-156 158-162 164-180 182-231 247-264 266-272 274-280 300-315 325-330 332-339 341-356 358-404; `problems/composite.py` 31-34 65-68 70-72 112-118 174-181 228-253 371-401; `atoms/__init__.py` 71-86 |
| `MixedPath.lean` | `paths/mixed_lasso.py` 103-104 118-123 135-142 144-153 197-212 250-260 262-381 277-292 284-285 294-363 301-358 302-344 320-330 360-361 |
| `MultiRegression.lean` | `algorithms.py` 112-113 149-156 253-260; `block_norms.py` 239-351 353-441 443-553 555-639; `sparse_group_block.py` 26-144 146-252 273-277; `svd_norms.py` 35-110 112-184; `mglm.py` 32-81 336-344 428-474; `glm.py` 96-135; `losses.py`  |
| `Multinomial.lean` | `smooth/mglm.py` 32-81 83-113 136-144 146-206 271-311 282-311 313-376 353-374 388-394 396-427 745-805 754-802 772-774 778-779 812-851 837-848 837-839 843-844 853-880 882-945 890-942 913-916 952-993 979-990 979-981 985-986 995-1022; `problems/composite.py` 112-118; `glm.py` 96-135 |
| `Multiscale.lean` | `affine/multiscale.py` 44-45 46-53 54-55 73-98 100-134 121-127 139-171 152-157 160-164 166-168 169-170 |
| `Nesta.lean` | `problems/simple.py` 128-360 128-226 179-180 183-186 193-226 194-208 211-218 228-360 343-360 |
| `NewtonRun.lean` | `problems/newton.py` 79-92 162-181 202-250 238-247 280-312 292-298 304-306 373-382 377-378 380-381 384-391 |
| `PartialSvd.lean` | `affine/factored_matrix.py` 28-67 186-244 194-197 199-202 212-232 235-244 317-367 324-332 339-361 361-363 364-367 379-400 413-441 444-471 501-526 538-543 546-551 |
| `Paths.lean` | `paths/__init__.py` 206-215 213-215; `weighted_atoms.py` 213-227 |
| `PenaltySequence.lean` | `paths/__init__.py` 206-215; `seminorms.py`  |
| `PiecewiseLinear.lean` | `atoms/piecewise_linear.pyx` 11-78 43-44 46-50 49-78 59-78 61-62 80-144 109-110 115-144 125-144 126-134 138-143 146-195 166-195 |
| `PowerL.lean` | `affine/__init__.py` 716-737 729-736 |
| `PowerSvd.lean` | `affine/factored_matrix.py` 247-367 324-334 339-343 345-359 350-359 358-359 361-367 |
| `ProblemFactories.lean` | `problems/simple.py` 19-22 41-50 52-61; `problems/separable.py` 59-79 78-79 176-189 191-197 199-205; `smooth/quadratic.py` 257-269 267-268; `smooth/__init__.py` 283-296; `problems/composite.py` 30-33 85-95 126-133; `atoms/cones.py` 25-45 384-413; `identity_quadratic.py`  |
| `Projl1.lean` | `atoms/projl1_cython.pyx` 17-27 36-47 51-71 |
| `QuadraticLoss.lean` | `smooth/quadratic.py` 52-71 52-59 75-83 85-96 98-109 166-191 193-233 223-227 229-230 232-233; `smooth/__init__.py` 43-52 79-99 85-88 101-114 116-126 143-156 191-200 255-261; `problems/composite.py` 21-47 31-34 126-132 247-248; `affine/__init__.py` 339-353 739-747 |
| `QuasiNewton.lean` | `problems/newton.py` 65-68 94-136 130-131 202-250 238-241 283-312 292-298 314-344 |
| `Regression.lean` | `problems/simple.py` 19-39; `composite.py` 174-181 |
| `Scores.lean` | `logistic.py` 24-39 27-32 41-77 46-51 55-58 68-70 90-105 123-142; `probit.py` 25-40 42-77 54-57 67-69 91-106 124-142; `cloglog.py` 26-41 43-78 55-58 68-70 92-107 125-143; `smooth/glm.py` 96-135 412-426 482-495 549-560; `huber.py` 78-85 87-108 92-95; `cox.py` 33-61 41-44; `multinomial.py` 102-120 |
| `ScoresMulti.lean` | `sklearn/huber_svm.py` 79-86 88-110 93-96; `sklearn/multinomial.py` 25-34 36-65 43-45 122-141; `mglm.py` 829-844 |
| `Seminorms.lean` | `atoms/seminorms.py` 632-636 639-645 648-650 653-660 703-707 710-716 719-728 731-733 869-873 876-882 885-892 895-903 900-902 946-954 957-964 967-975 972-974 978-980 1024-1032 1035-1040 1043-1051 1048-1061 1054-1062 1105-1109 1112-1117 1120-1122 1125-1133 1130-1132 1173-1195; `atoms/__init__.py`  |
| `Separable.lean` | `problems/separable.py` 17-55 45-48 49-50 57-79 59-79 122-132 134-147 139-146; `identity_quadratic.py` 89-92 174-191; `cones.py` 399-400 |
| `SeparableObj.lean` | `problems/separable.py` 59-79 98-109 111-120 122-132 134-147 143-146 149-161 152-156 153-154 169-172; `identity_quadratic.py` 40-61 204-208; `problems/composite.py` 120-133 174-181 228-253 371-400; `problems/simple.py` 19-22; `seminorms.py` 1171-1183 1185-1195; `atoms/__init__.py` 71-86 |
| `SimpleSolvers.lean` | `problems/simple.py` 96-126 104-126 109-112 |
| `Simplex.lean` | `atoms/simplex.py` 89-92 95-101 220-223 |
| `Sklearn.lean` | `sklearn/base.py` 149-176 174-175 184-218 190-195 426-442; `gaussian.py` 21-27 30-53 35-37; `logistic.py` 72-74 107-120 123-139; `multinomial.py` 122-138 |
| `Slope.lean` | `atoms/slope.py` 64-69 72-79 82-84 167-174 177-184 191-199 201-222 212-217 217-221 |
| `Smooth.lean` | `smooth/__init__.py` 43-52 80-99 116-126 128-133 209-253 289-296 302-327 328-374 355-363; `smooth/quadratic.py` 64-71 131-164 235-255 257-270; `problems/composite.py` 112-118 |
| `Smoothed.lean` | `atoms/__init__.py` 71-86; `problems/composite.py` 174-181 228-253 371-401; `seminorms.py` 285-364 |
| `Smuce.lean` | `affine/multiscale.py` 173-254 173-186 180-182 185-186 188-220 216-218 222-254 249-253 |
| `SolveHeap.lean` | `algorithms.py` 102-206; `newton.py` 62-75 238-250 282-312 283-306 292-298; `simple.py` 19-22 37-39 77-94; `composite.py` 36-39 174-182 212-226; `admm.py` 54-55 92-96; `smooth/__init__.py`  |
| `SparseGroupPath.lean` | `paths/sparse_group_lasso.py` 46-50 69-70 96-119 150-158 160-201 219-246 304-325 343-360 364-423 390-418 397-413 414-416; `paths/sparse_group_block.py` 55-69 161-168 171-211 411-418 501-521 523-577 543-544 548-567 548-573 569-573; `atoms/sparse_group_lasso.py` 39-64 66-81 128-157 413-495; `atoms/group_lasso.py` 40-82; `paths/group_lasso.py` 80-88 |
| `StackedFactories.lean` | `mglm.py` 1-21 32-81 213-269 259-262 281-311 313-376 353-374 428-743 476-528 519-522 530-577 568-571 579-632 634-687 689-743; `binary.py` 18-55; `composite.py` ; `cox.py` 96-100; `glm.py` 96-135 |
| `StackedLoglike.lean` | `smooth/glm.py` 963-964 1158-1159 1334-1335 1394-1981 1405-1447 1430-1434 1449-1506 1480-1484 1486-1488 1489-1503 1516-1522 1524-1555 1557-1604 1606-1766 1768-1815 1817-1870 1872-1925; `paths/sparse_group_block.py` 420-452; `binary.py` 186-187 872-873; `smooth/__init__.py` 50-51 1420-1428 1439-1441; `problems/composite.py`  |
| `StrongRules.lean` | `paths/__init__.py` 58-65 217-372 250-356 257-353 300-303 320-323 333-353; `paths/lasso.py`  |
| `SvdNorms.lean` | `atoms/svd_norms.py` 46-51 54-61 64-71 74-81 125-129 132-139 142-147 150-155 257-265 268-280 303-311 314-327 350-358 361-374 397-405 408-420 |
| `Threads.lean` | `paths/__init__.py` 374-429; `cross_validate.py` 69-74 77-88 382-399 401-421 402-403 409-414 |
| `TrendFilter.lean` | `affine/fused_lasso.py` 7-50 40-47 42-46 44-45 52-70 59-60 75-76 83-84 99-104 101-102 105-110 115-119 120-124 |
| `WarmStart.lean` | `paths/__init__.py` 36-40 374-429; `paths/lasso.py` 74-82 176-182 313-325 401-421 402-403 406-410 |
| `Weighted.lean` | `atoms/weighted_atoms.py` 37-40 92-116 147-161 175-178 181-192 183-189 239-251 242-248 254-256 |

## What is not modelled

Within modelled files, code not cited in the table above is not modelled. Whole areas left out:

- Floating point: rounding, overflow, denormals. nan and inf appear only where a definition represents them explicitly.
- Performance, memory layout, sparse matrix formats, warnings, verbose output, docstring/LaTeX helpers
  (`doctemplates.py`, `objdoctemplates.py`, `latexify`), test helpers and example scripts.
- `scipy.optimize.fmin_powell` inside `quasi_newton.backtrack` and the FISTA run inside `solve_inner_loop` are parameters (C80).
- `np.linalg.svd` itself (taken as any triple meeting its contract), the callers of `partial_svd` take its power iteration as converged (the iteration itself is C110),
  `affine/fused_lasso.py` sparse assembly beyond the trend filter.
- joblib itself (C95 covers every interleaving of the threads it may start, at the granularity of accesses to the shared dictionary), random numbers (replaced by arbitrary values), the R and JSS example code.

## Findings

Places where the code, as modelled, does not do what its documentation or API suggests. "Thm" gives the theorem that proves it;
the others were noticed while reading and are not theorems.

Atoms
- Root finder beyond the largest knot: docstring promise fails. Thm `C01_findC_docstring_fails`.
- Feasibility tests with the wrong sign of tolerance in `constrained_max`, `constrained_positive_part`, `max_positive_part`:
  the atom rejects its own projections. Thm `C08_*_fails`, `C11_*_fails`.
- `l2_epigraph` / polar cones: see the `C17_*_fails` theorems.
- `mixed_lasso.nonsmooth_objective` applies the offset twice; its bound prox lacks an absolute value (unreachable through the
  public API); it uses the removed alias `np.int`.
- `group_lasso.__eq__` ignores the bound. `slope.get_conjugate` refers to a name that is never imported; the constructor's
  `np.allclose` admits slightly increasing weights.
- `sparse_group_lasso_dual.constraint` returns a bool and ignores `bound`; `base_conjugate` is never cached.
- `gauge_function_dual` inherits the `1e-7` tolerance of its membership test: Thm `C50_tolerance_fails`. Called with a large `tol`
  it returns an unbound variable.
- Block norms: nan on every zero row of the argument (Thm `C57_zero_rows_fails`, `C57_linf_l2_bound_zero_fails`); the conjugate keeps
  the parameter of construction time after an assignment (Thm `C57_conjugate_stale_fails`); `block_sum.constraint` always raises in
  bound mode (Thm `C57_block_sum_constraint_fails`); `block_sum.bound_prox` returns 0 (Thm `C57_block_sum_bound_prox_fails`);
  `block_sum.lagrange_prox` and `block_max.bound_prox` use Python 2's `xrange`.
- `sparse_group_block`: the dual norm of every matrix with norm at most `1e-10` is computed as 0 (Thm `C58_small_fails`); `terms` uses
  the l1 weight twice (Thm `C58_terms_fails`); `constraint` calls `np.sqrt(np.sum(x**2), 1)` and always raises.
- `weighted_atoms.supnorm.terms` divides by the weights, its seminorm multiplies.
- `affine_atom.__init__` adds the affine offset with the sign opposite to the documented `h(D beta + alpha)` (`C67_constructor_sign_fails`).
- `cls.linear`/`cls.affine` given an operator with its own offset drop it in `nonsmooth_objective` but keep it in `smoothed`
  (`C67_operator_offset_fails`); operators without the attribute `affine_offset` (scaler, reshape, add_intercept) raise AttributeError
  unless they are linear transforms; `linear_constraint.linear` passes an unknown keyword.
- `composite.set_offset` ignores all-zero values, so assigning zeros to an atom which has an offset leaves the old offset.

Affine maps
- `linear_transform(T)` of an affine `T` keeps the offset of `T`; `selector.adjoint_map` with reshape changes the shape of the caller's
  array; `scaler`, `reshape`, `add_intercept` never set `affine_offset`.
- `multiscale` in `_all` mode never includes intervals ending at `p`; `SMUCE_stat` leaves the scaling overwritten and `sigma_hat`
  undefined when sigma is given.
- `trend_filter` does not sort knots while its inverse does; the 2-D adjoint of the inverse uses the wrong axis.
- Shared output buffers: see the `C53_*_fails` theorems.
- `nuclear_norm_epigraph.constraint` sums `D[1:]`, so it ignores the largest singular value (`C60_nuclear_constraint_fails`);
  `svd_cone.get_conjugate` refers to `smooth_conjugate`, which is not imported; `svd_norms` uses `np.product`, removed in numpy 2.
- `projection_complement.constraint` accepts points close to the span instead of the complement; `get_conjugate()` of both subspace
  classes raises KeyError; a nonzero quadratic makes `conjugate` a NameError (Thm in `C61`).
- Low rank `nuclear_norm.lagrange_prox` (`factored_matrix.py`) ignores `lipschitz` (C66_lipschitz_fails), raises IndexError on the zero
  matrix (C66_zero_matrix_fails), and raises ValueError for every matrix with fewer than `initial_rank` (default ten) rows or columns
  (C66_small_matrix_fails); low rank `operator_norm` cannot be constructed for a wide matrix (C66_operator_wide_fails).

- `mixed_lasso.check_KKT` never looks at unpenalised coordinates nor at the direction of the gradient on an active group: arbitrarily bad vectors are
  accepted. `mixed_lasso.strong_set` multiplies only the first term of the threshold of a group by its weight and discards active groups of weight above
  one. The dual seminorm of a positive part coordinate has the wrong sign for a gradient, so `lagrange_max` is too small (C81). The function `check_KKT` of
  `atoms/group_lasso.py` always raises `NameError`.
- `seminorm.check_subgradient`: with the parameter 0 it divides by zero; for `positive_part` (and the other classes whose dual has a constrained domain) the dual norm test ignores
  feasibility, so wrong proximal points are accepted; `cone.check_subgradient` accepts maps that always return 0 or always return their argument (C85).
- `mixed_lasso.nonsmooth_objective` applies the offset and then calls `seminorm`, which applies it again: with one l1 coordinate, multiplier 1 and offset 1 the value at `x = 1` is 1 instead of 0 (`C90_mixed_lasso_offset_fails`).

- `__copy__` of the weighted atoms, slope, the sparse-group classes, the linear, simplex and maximum constraints, `svd_cone` and the mixed lasso passes `self.quadratic` itself: changing the copy's quadratic changes the original's (`C92_shared_quadratic_fails`). Copies of the mixed lasso share the weights (`C92_shared_weights_fails`); `block_sum` and `block_max` cannot be copied (`C92_block_copy_fails`).
- The conjugate's offset is the array of the atom's linear term, the inner atom of a composition may hold the transform's own offset array: writes in place reach both (`C92_conjugate_alias_fails`, `C92_affine_alias_fails`). Writing `group_lasso.weights[g]` directly leaves the derived array stale, and a copy then differs (`C92_stale_weights_fails`).

- `mixed_lasso.nonsmooth_objective` subtracts the offset and calls `seminorm`, which subtracts it again: with an offset the value, and everything using it such as `smooth_conjugate`, is wrong (`C93_offset_value_fails`, `C93_smooth_value_fails`). With `check_feasibility` a feasible point with a zero coordinate is infinite (`C93_feasibility_fails`).
- `mixed_lasso_dual.nonsmooth_objective(check_feasibility=True)` adds the bool returned by `constraint`: 1 at feasible points, 0 at infeasible ones (`C93_dual_value_fails`); `constraint` ignores unpenalised and nonnegative coordinates (`C93_dual_constraint_fails`), and that of the primal compares lagrange times the penalty with the bound (`C93_constraint_fails`). `==` ignores offset and quadratic (`C93_eq_fails`).

- `==`: `slope` ignores the weights, `sparse_group_lasso` the `lasso_weights`, `group_lasso` the bound, every class the offset and the quadratic, seminorms the shape (`C97_slope_fails`, `C97_sparse_group_fails`, `C97_group_bound_fails`, `C97_offset_fails`, `C97_quadratic_fails`, `C97_shape_fails`); not symmetric for linear constraints and quadratics, not transitive for weighted norms (`C97_symm_fails`, `C97_quadratic_symm_fails`, `C97_trans_fails`); raises for a quadratic without center (`C97_quadratic_self`).
- `identity_quadratic.noneify` raises AttributeError for every quadratic with a center (`C97_noneify`).

- Cones: `l2_epigraph` objects inherit the wrong projection (`C101_l2_epigraph_fails`); a transform with an offset of its own loses it in `cone.linear` (`C101_operator_offset_fails`); `affine_cone(cone, affine_transform(D, α))` composes with `D x - α` instead of the documented `D x + α` (`C101_constructor_offset_fails`). Read, not modelled: the `get_dual()` methods of the ten cone classes call `cone.dual`, which is a property object, so they always raise TypeError (the attribute `dual` is bound to the base class's function and works); `linear_constraint.linear` uses the name `linear_transform`, which its module does not import, so it always raises NameError.

- `conjugate.seminorm(-grad, lagrange=1)` is not the null threshold for `positive_part` and `max_positive_part`: unchecked it ignores the sign constraint of the conjugate, checked it is infinite at vectors with a zero entry because the tolerance has the wrong sign (`C102_null_value_fails`).

- Group LASSO cones with a group of weight zero: the polar class skips such groups, so the conjugate of the epigraph object accepts points outside the polar cone (`C103_zero_weight_fails`). The inherited class methods `linear` and `affine` of the group and matrix cones pass the shape of the array as groups or matrix shape, and `cone.__eq__` compares only shapes, so two group cones with different groups are equal (read, not modelled).

- `l1_l2` (both forms) and `linf_l2` in Lagrange form divide by the row norms: a zero row of the argument gives nan (`C104_zero_row_fails`), and `solve` fails for a design with a zero column (`C104_zero_column_fails`). `sparse_group_block.constraint` calls `np.sqrt(np.sum(x**2), 1)`, a TypeError, and its `bound_prox` raises NotImplementedError.

- `sparse_group_lasso_dual`: with the feasibility check the objective in bound form is 1 too large inside of the ball and 0 outside (`C106_sparse_dual_feasibility_fails`); in Lagrange form every method raises (`C106_sparse_dual_lagrange_fails`). `slope_conjugate` has no proximal map in Lagrange form (`C106_slope_conjugate_lagrange_fails`). `weighted_atoms.supnorm.terms` belongs to the inverse weights (`C106_weighted_sup_terms_fails`), `weighted_atoms.l1norm.terms` is nan at feasible points for infinite weights (`C106_weighted_l1_terms_fails`), `weighted_atoms.supnorm` without a finite weight raises at 0 (`C106_weighted_sup_infinite_fails`).
- `partial_svd`: the number of values asked for is cut to the number of columns of the transform but not to the number of its rows; asking for more values than rows raises `IndexError` (`C110_more_values_than_rows_fails`). The stopping test compares successive values only: from a start orthogonal to the leading singular vector it stops at a smaller value (`C110_start_fails`).

Losses
- `huber_svm`: gradient and convexity wrong for `eps != 1`; logistic value jumps at the overflow cut 100, and its Hessian overflow
  branch indexes with the wrong mask; poisson / logistic / glm Hessians ignore the offset (`C28`–`C30` `_fails` theorems).
- Deviance constants: poisson multiplies `coef` twice; `copy` of logistic / poisson doubles it; `copy` of huber / huber_svm drops case
  weights (`C32` `_fails` theorems).
- Evaluation multiplies the caller's / glm's weight array in place when the loss has its own weights (`C31` `_fails` theorems).
- Cox: nan on empty-weight risk sets; shared gradient buffer; `set_data` does not recompute the ordering; `hessian_mult` ignores coef.
- Multinomial clips at ±50, so gradient and convexity are wrong beyond; `multinomial.subsample` is ignored in evaluation and writes to
  the original's weight array.
- `stacked_common_loglike` columns with own weights accumulate multiplicatively; class methods `poisson`, `huber` of the stacked
  classes and `mglm.stacked` refer to undefined names. `glm` ignores the offset of an affine design.
- `probit_loglike`, `cloglog_loglike` ignore their offset; clip inside the value but not in the density, so beyond ±20 / ±5 the
  gradient is wrong and the loss not convex; `hessian` is the expected Hessian, not the Hessian (`C72` `_fails` theorems).
- The deviance constant ignores case weights, and for poisson is not the saturated log-likelihood, so `objective` can be negative
  (`C73_weights_fails`, `C73_poisson_fails`).

- `stacked_loglike`: case weights (its own or the caller's) have no effect, so neither has `subsample`; evaluation multiplies the caller's
  weights in place; `.huber` and `.huber_svm` ignore `coef`; `.poisson` raises NameError, `.logistic`, `.probit`, `.cloglog` TypeError;
  of the eight `stacked_*` factories only `stacked_gaussian` works (C77).
- `quadratic_loss.affine` and `.linear` (and those of every smooth atom) hand `quadratic` to the inner atom, whose `smooth_objective` ignores
  it, so the argument has no effect (C79); `conjugate` of a loss with a `Q` always raises: `scaler` has no `diagD`, the other
  branches need `factor` and then use undefined names (C79).
- `huberized_svm`: `coef` and `offset` are stored and never used; a sample with a single label is coded `+1` even if the label is the lower one; it differs from `glm.huber_svm`
  for every smoothing parameter other than 1, because the latter is wrong there (C86, C28).
- `glm.data = X, y` replaces `_X` but not the transform inside `affine_atom`: value and gradient use the old design, Hessian, linear predictor and copies the new one (`C98_data_fails`). The constructor stores the response into the saturated loss it is given, so two `glm` objects on one loss overwrite each other (`C98_shared_loss_fails`). `__copy__` and `hessian` ignore `coef` (`C98_copy_coef_fails`, `C98_hessian_coef_fails`). A logistic response that is refused has been stored (`C98_failed_assignment_fails`).

- `smooth.sum` and `affine_smooth` drop the quadratics attached to the losses they are built from: `sum([loss])` and `loss` have different objectives (`C100_sum_quadratic_fails`, `C100_affine_quadratic_fails`).

- `stacked_common_loglike(case_weights=...)`: every evaluation through `mglm` multiplies the weights once more (`C104_stack_weights_fails`). `stacked_common_loglike.gaussian(coef=...)` passes `coef` to its columns but not to the stack.

- `mglm.stacked`, `stacked_common_loglike.poisson` and `.huber` use undefined names and `.logistic` passes its arguments one place off: they raise for every input (`C105_broken_fails`). `stacked_common_loglike.huber_svm` ignores `coef` (`C105_huber_svm_coef_fails`).

- `glm.probit` and `glm.cloglog` accept `saturated_offset` and ignore it (`C108_saturated_offset_fails`); `glm.linear_predictor` leaves out the offset the loss applies (`C108_linear_predictor`).

Algorithms
- FISTA: `if FISTA:` tests the class, so `FISTA=False` has no effect; `restart` does not reset the weights; `max_its=0` means 10000; a
  tolerance stop leaves `composite.coefs` unchanged; the tiny-change branch of backtracking accepts without the upper bound; a nan
  proposal is accepted; `prox_control` is ignored.
- `simple_problem.solve` does not restore the quadratic on an exception (Thm in `C36`).
- `separable`: overlap test off by default, blind to identical groups and repeated fancy indices (Thm in `C37`).
- `quasi_newton`: accepts `-1e-5 <= y.s < 0`, which destroys positive definiteness; divides by zero when solution and start are 0;
  ignores `smooth_atom.quadratic`; `niter=0` returns an unbound variable (Thm in `C38`).
- `smoothed()` of an atom with nonzero quadratic coefficient raises TypeError.
- `gengrad`: `simple_problem.solve(q)` keeps the loss, so its steps minimise `2f + h` instead of `f + h`; right only when one part is
  zero (Thm in `C62`).
- `nesta` can return an infeasible dual and `tfocs` an infeasible primal: the extrapolated center is returned (Thm in `C63`).
  With `epsilon=[]` both raise UnboundLocalError.
- `admm_problem.update_loss_coefs` applies `D` where `Dᵀ` is needed: wrong for every nonsymmetric transform, never converges for a
  rotation (Thm in `C64`); non-square transforms fail the assertion `loss.shape == transform.output_shape`; the constructor argument
  `quadratic` is ignored.
- `dual_problem.solve(return_optimum=True)` returns the dual objective at the primal point (`C68_return_optimum_fails`), or fails on
  shapes; its `quadratic` argument is ignored; the point returned belongs to the last gradient evaluation, not to the coefficients
  FISTA returns.

- `container.proximal` with a quadratic in the container or in a loss: the dual problem uses the total quadratic, the
  recovery of the primal point only the coefficient, center and linear term of the argument (`C69_quadratic_fails`).
- `container.proximal` for one penalty composed with `selector(index_obj, shape, T)` ignores `T` (`C69_selector_transform_fails`).
- `container.solve(quadratic=q)` computes `newq` and never uses it (`C69_solve_quadratic_fails`).
- `container(*penalties)` without a loss raises IndexError (`C69_only_penalties_fails`).
- `conjugate.smooth_objective`: when the inner minimisation raises, the linear term of the caller's quadratic stays shifted by
  the query (`C70_exception_fails`).
- `smooth_conjugate.get_conjugate` raises UnboundLocalError or TypeError whenever the object itself has a quadratic
  (`C71_own_quadratic_fails`).
- `smooth.solve(quadratic, return_optimum=True)` returns the value without the argument; so the value of
  `smooth_conjugate(loss)` is wrong (`C71_loss_value_fails`).
- `container.proximal` looks for an attribute `dual_minimizer` which is never set, so there is no warm start (not part of a claim).

- `quasi_newton.solve` returns the last inner solution, not the point its line search accepted: its objective can exceed the value at the start,
  and `solver_results[-1]` is not its value; the quadratic of the loss is in `objective` but not in the inner problem, so with such a loss the iteration
  stops at a wrong point (C80).
- `FISTA.fit` stops when the objective changed by a relative amount below `tol`: for every tolerance and every gap there is a convex quadratic in one variable on which it stops
  after one recorded pass, farther than the gap from the minimum (`C35_stopping_fails`).
- `SMUCE_stat(M, Z, sigma=...)` always raises `UnboundLocalError`; without sigma it overwrites `M.scaling` and never restores it (`old` is unused), so later uses of the transform differ; a constant signal gives nan. `choose_tuning_parameter` ignores its `sigma` (C89).
- `FISTA.fit`: an overshoot that returns to the same objective level is read as convergence, so for one convex problem every `tol > 0` gives the same wrong answer (`C96_tol_limit_fails`).

- Coefficient arrays are shared without copying: a second `quasi_newton.solve` can overwrite the solution the first returned (`C99_newton_fails`), `admm_problem.solve` overwrites an earlier `loss.solve` result (`C99_admm_fails`), `problem.coefs[:] = v` overwrites another problem's solution when they share the atom (`C99_write_fails`), and a problem built on a used atom starts where the atom's last proximal call ended (`C99_used_atom_fails`). `quasi_newton.solve(niter=0)` raises (`C99_niter_zero_fails`).

- `composite.proximal_optimum` never returns: it adds a number to the pair `(value, gradient)` (`C107_proximal_optimum_fails`). `simple_problem(loss, separable(..., initial=x))` raises because the separable atom has no `coefs`; `separable_problem.fromatom` accepts the same atom and ignores the start (`C107_fromatom`).

Paths and wrappers
- lasso `check_KKT` with all weights zero flags nothing. `default_lagrange_sequence` with `nstep=1` returns the smallest value.
- Cross-validation folds computed in IEEE arithmetic can differ by 2 in size, or be fewer than `cv`; `cv=1` divides by zero.
- `sparse_group_lasso_path`: the ridge term lacks the lagrange parameter; `penalty.seminorm` ignores the rescaling by `l1_alpha`;
  `subsample` rescales twice; `unpenalized` never flags an unpenalised group and `check_KKT` raises with one; the check of an active group
  has no upper bound on the gradient (C75).
- `sparse_group_common_path`: `l1_alpha` has no effect on the path but changes its subsamples (C76).
- `warm_start`: `devratio` divides by the largest loss, so it exceeds 1 for losses that can be negative (poisson) and is nan for a
  perfect fit (C78).
- `mixed_lasso_path`: only the first row of `beta` is divided by the scalings; `df` is always the number of columns after the first entry; every read of
  `elastic_net` multiplies the stored quadratic by `lagrange` again; the elastic net is in the optimality check but not in the subproblems, so a path with
  elastic net ends in warnings; `lagrange_max` differs when `null_solution` is read first (C82).
- `sklearn_probit`, `sklearn_cloglog`: `fit` ignores the offset column, `score` subtracts it; `sklearn_cloglog`: `mean_deviance` is not divided by n, the null model
  of `R2` uses the wrong quantile function, labels do not match probabilities; all binary families: the null model of `R2` ignores weights, and `R2` and
  `accuracy` raise for responses with trials; `sklearn_huber`: the mean is not the best constant; `sklearn_cox`: `R2` of a constant is -1 (C83).
- `lagrange_mixin.fit`: `unpenalized=True` always raises `objective is NaN` (`np.inf * 0`); `enet_alpha != 0` discards the quadratic of the constructed atom and
  the ridge term also shrinks coefficients the penalty leaves free; the constructor argument `quadratic` is never read. By reading only:
  `classifier_lagrange_mixin.__init__` refers to an undefined `offset` and calls `lagrange_mixin(...)` instead of its `__init__` (C84).
- `sklearn_multinomial`: the score ignores case weights that `fit` uses; `R2` raises unless the number of observations and classes broadcast; `predict_proba` of the classifier divides by the
  row sums along the wrong axis: it raises for `n != k` and is wrong for `n = k`. `sklearn_huber_svm`: `R2` compares with the mean of the 0/1 response, a constant can have positive `R2` (C87).
- `separable.conjugate` leaves the coordinates in no group free, where the conjugate is infinite off 0 (`C91_conjugate_fails`). A quadratic assigned to a separable penalty is ignored by `nonsmooth_objective` and `proximal`; `conjugate` then, and `smoothed(q)` always, give an object every evaluation of which raises ValueError (`C91_quadratic_fails`, `C91_smoothed_fails`).
- `separable` with `shapes`: `proximal` called directly raises for an array center, because only the linear term is reshaped (`C91_shapes_fails`); inside a problem it works (`C91_shapes_in_problem`). `initial=` makes the object unusable as a penalty (`C91_initial_fails`), `selectors` raises NameError (`C91_selectors_fails`), `constraint(x, bound)` gives every block the whole bound (`C91_constraint_fails`).
- `cross_validate` with the default fitter `strong_rules` leaks: the first row of each fold is the null solution fitted on all cases, so the score at the first lagrange parameter is not a held-out score when there are unpenalised features (`C94_first_score_fails`: 1 reported, 4 is the leave-one-out error).
- `lasso_path` applies only the linear part of a design with an offset in its constructor, its subproblems and `linpred`, while `full_loss` (used by `warm_start`) applies the offset (`C94_affine_design_fails`).

- `warm_start` has a mutable default `solve_args={}` that it writes to: in `cross_validate(..., path_fitter=warm_start)` the threads of the folds overwrite each other's `start_step` (`C95_step_race_fails`), concurrent calls with different `inner_tol` can exchange tolerances (`C95_tol_race_fails`), and a caller's `tol` is overwritten in the caller's own dictionary (`C95_user_args_fails`).

- `scaler` applied to a matrix multiplies its columns, so `todense` of a composition with a scaler is wrong (or raises for other shapes); stacks raise on
  the two-dimensional arguments the docstrings allow.
- `strong_rules`: unpenalised features never enter the subproblem with `check_active=False`; stale deviance on warning.
- `basil` ignores `check_active`, `verbose`, `initial_step`; can loop forever with an inexact solver; changes the caller's gradient
  array; skips repeated lagrange values.
- sklearn wrappers: `score` ignores `sample_weight` without a case weight column; the caller's `y` is changed; classifier `score` compares
  linear predictors with labels; multinomial `predict_proba` broadcasts along the wrong axis; Cox R2 lacks a factor 2.

## Per-property plan and result

All theorems are in namespace `Verif.Props`. A name ending in `_partial` proves part of the property (its comment says what is missing); a name ending in `_fails` proves that the code violates the property, with a witness.

### C01 Piecewise-linear root finder returns the root

find_solution_piecewise_linear_c(b, slope, norms) (slope>=0, norms>=0): if sum(norms) < b it returns 0; otherwise, whenever some t in [0, max(norms)] solves sum_i max(norms_i - t,0) = slope*t + b, the returned number is nonnegative and solves it. find_solution_piecewise_linear (weights) and find_solution_piecewise_linear_uncon return the root of their own functions.

Plan: Model the three loops as structural recursion over the descending-sorted knot list (`Verif/Model/PiecewiseLinear.lean`); argsort is any permutation sorting the knots. Invariant: curV is f at curX. Proof by induction over the list.

- `C01_findC_small` — below the early-return threshold the answer is 0.
- `C01_findC_exists` — existence. If `b` lies between `f(max) - slope*max` and `f(0)` a root in `[0, max]` exists and is returned.
- `C01_findC_root` — any root in `[0, max(norms)]` is what the code returns.
- `C01_findC_docstring_fails` — the docstring promise "return the t>=0 such that f(t)=slope*t+b, if one exists" fails beyond the largest knot: for `norms = [1]`, `slope = 1`, `b = -3` the root is 3 but the code returns 2.
- `C01_findUncon` — `find_solution_piecewise_linear_uncon` returns a root of `f(t) = b` for every `b ≥ 0`.
- `C01_empty` — an empty array raises in both functions (unless the early return of `_c` applies).
- `C01_findW` — the weighted solver. `nw` lists `(norms[i], weights[i])`; weights are 0 or at least `1e-20` (the guard in the code replaces smaller ones); ties may be sorted in any way. The function is the one of the docstring, `f(t) = Σ w (w t < norm) (norm - w t)`.

### C02 projl1 is the Euclidean projection onto the l1 ball

For bound >= 0, projl1(x, bound) is feasible (sum|y_i| <= bound) and no feasible point is closer to x; a point already strictly inside is returned unchanged.

Plan: projl1 = root finder + soft_threshold; variational inequality from C01.

- `C02_projl1` — `projl1(x, bound)` is the Euclidean projection on the l1 ball.
- `C02_projl1_fixed` — a point of the ball is returned unchanged.
- `C02_l1norm_bound_prox` — `l1norm.bound_prox`.

### C03 l1 soft-thresholding is the proximal map

l1norm.lagrange_prox(x, lipschitz=L, lagrange=lam) is the unique minimiser of L/2||z-x||^2 + lam*||z||_1, for every L>0 and lam>=0 (lam = inf gives 0 in the limit as documented).

Plan: Coordinatewise minimisation of a strongly convex scalar function.

- `C03_l1norm_lagrange_prox` — `l1norm.lagrange_prox` is the proximal map of `lagrange * ‖·‖₁`.

### C04 projl1_epigraph is the projection onto the epigraph of the l1 norm

projl1_epigraph(center) lies in {(v,u): ||v||_1 <= u} and is the closest point of that set to center.

Plan: C01 with slope 1 + variational inequality, three regimes.

- `C04_projl1_epigraph` — for every center `(x, norm)` the function returns the closest point of the epigraph.
- `C04_empty` — zero array has no entries: the code raises

### C05 sup norm proximal maps are optimal

supnorm.lagrange_prox minimises L/2||z-x||^2+lam*max|z_i|; supnorm.bound_prox is the projection on {max|z_i|<=bound}.

Plan: Moreau from C02; clip for the bound form.

- `C05_supnorm_bound_prox` — `supnorm.bound_prox` is the projection on the sup-norm ball.
- `C05_supnorm_lagrange_prox` — `supnorm.lagrange_prox` is the proximal map of `lagrange * max|z_i|`.

### C06 l2 norm proximal maps are optimal

l2norm.lagrange_prox minimises L/2||z-x||^2+lam*||z||_2 and l2norm.bound_prox projects on {||z||_2<=bound}, including x = 0 and the boundary cases.

Plan: Real inner product geometry; zero vector branch explicit.

- `C06_l2norm_lagrange_prox` — `l2norm.lagrange_prox`.
- `C06_l2norm_bound_prox` — `l2norm.bound_prox`.
- `C06_no_zero_division` — no division by zero is reached: the norm in the denominators of both methods is positive in the branch that divides.

### C07 positive-part family proximal maps are optimal

For positive_part, constrained_max, constrained_positive_part and max_positive_part both lagrange_prox and bound_prox return the minimiser of the documented penalised / constrained problem.

Plan: Coordinatewise plus C01/C02 on the positive part.

- `C07_positive_part_lagrange_prox` — `positive_part.lagrange_prox`.
- `C07_positive_part_bound_prox` — `positive_part.bound_prox`.
- `C07_constrained_max_bound_prox` — `constrained_max.bound_prox` is the projection on `[0, bound]^n`.
- `C07_constrained_max_lagrange_prox` — `constrained_max.lagrange_prox` minimises `L/2‖z-x‖² + lagrange*max(z)` over `z ≥ 0`.
- `C07_constrained_positive_part_lagrange_prox` — `constrained_positive_part.lagrange_prox` minimises `L/2‖z-x‖² + lagrange*Σ z` over `z ≥ 0`.
- `C07_constrained_positive_part_bound_prox` — `constrained_positive_part.bound_prox` projects on `{z ≥ 0, Σ z ≤ bound}`.
- `C07_max_positive_part_bound_prox` — `max_positive_part.bound_prox` projects on `{z : max(z⁺) ≤ bound}`.
- `C07_max_positive_part_lagrange_prox` — `max_positive_part.lagrange_prox` is the proximal map of `lagrange * max(z⁺)`.

### C08 Conjugate pairs are dual seminorms

For every pair registered in conjugate_seminorm_pairs with values h and h*, <x,y> <= h(x)*h*(y) on the effective domains and the bound is attained for every y (h*(y) = sup over h(x)<=1), so that lagrange=r on one side is exactly conjugate to bound=r on the other.

Plan: Finset sums; Hoelder inequalities with attaining vectors.

- `C08_l1_sup` — (l1norm, supnorm)
- `C08_sup_l1` — (supnorm, l1norm)
- `C08_l2_l2` — (l2norm, l2norm)
- `C08_positive_part` — (positive_part, constrained_max): the constraint set is `0 ≤ y ≤ r`.
- `C08_max_positive_part` — (max_positive_part, constrained_positive_part): the constraint set is `y ≥ 0, Σ y ≤ r`.
- `C08_constrained_max_partial` — The true support function of `{y : Σ max(y,0) ≤ r}` is `r * max(x)` on `x ≥ 0` and `+∞` elsewhere. On `x ≥ 0` this is the value `constrained_max.seminorm` returns with `check_feasibility=False`. Partial: with `check_feasibility=True` the atom reports `inf` also on feasible points that have a coordinate below the tolerance, see `C08_constrained_max_fails`.
- `C08_constrained_positive_part_partial` — Same for `constrained_positive_part`, partner of `max_positive_part`. Partial for the same reason, see `C08_constrained_positive_part_fails`.
- `C08_constrained_max_fails` — The value with feasibility checking is not the support function: at (0,1) it is `inf`, although the inner products are bounded by 1.
- `C08_constrained_positive_part_fails` — **C08** fails for `constrained_positive_part`: its penalty is not the support function of the ball of the class listed as its dual.

### C09 Moreau decomposition between an atom and its conjugate

For every registered pair, prox of lam*h at x plus the projection of x on the dual ball of radius lam equals x, for the values actually returned by lagrange_prox and bound_prox (with lipschitz L: x = lagrange_prox(x,L,lam) + bound_prox(L*x, bound=lam)/L).

Plan: Algebra on the returned values from the model definitions.

- `C09_l1_sup` — l1norm / supnorm
- `C09_sup_l1` — supnorm / l1norm
- `C09_l2` — l2norm is its own partner
- `C09_positive_part` — positive_part / constrained_max
- `C09_constrained_max` — constrained_max / positive_part
- `C09_constrained_positive_part` — constrained_positive_part / max_positive_part
- `C09_max_positive_part` — max_positive_part / constrained_positive_part

### C10 atom.proximal solves the stated problem with offset and quadratic

atom.proximal(q) returns the minimiser of q(x) + atom.quadratic(x) + h(x - offset) in both lagrange and bound mode, and raises ValueError exactly when the total quadratic coefficient is 0.

Plan: Generic theorem over an abstract base prox; identity_quadratic model; recenter.

- `C10_proximal_lagrange` — , lagrange mode. `h, S`: value and effective domain of the penalty `lagrange * h`; the base proximal map is assumed correct for every positive Lipschitz constant (this is what C03, C05, C06, C07 prove of the concrete atoms).
- `C10_proximal_bound` — , bound mode: minimises the quadratics over `{x : x - offset ∈ S}`.
- `C10_proximal_total` — called with a quadratic whose center is an array (what every solver does), the method returns a point whenever the total coefficient is nonzero and the base map does not raise, and raises ValueError exactly when the total coefficient is 0.
- `C10_l1norm` — instance: `l1norm(lagrange=lam, offset, quadratic).proximal(q)`.
- `C10_l1norm_bound` — instance: `l1norm(bound=b, offset, quadratic).proximal(q)`.
- `C10_supnorm` — instance: `supnorm(lagrange=lam, ...).proximal(q)`.
- `C10_l2norm` — instance: `l2norm(lagrange=lam, ...).proximal(q)`.
- `C10_cone_proximal` — for cones: `cone.proximal` minimises the quadratics over `{x : x - offset ∈ S}`.

### C11 Projected points pass the atom's own feasibility test

For each constraint-type atom, constraint(x) is 0 exactly on the documented set up to the tolerance; in particular bound_prox output is reported feasible.

Plan: Constraint tests with tolerance modelled literally; negation witnesses where the test has the wrong sign.

- `C11_l1norm` — l1norm
- `C11_l1norm_projected` — projections on the l1 ball are accepted
- `C11_supnorm` — **C11** supnorm: projections are accepted as feasible, so is every feasible point, and an accepted point exceeds the bound by at most the relative tolerance.
- `C11_l2norm` — **C11** l2norm: projections are accepted as feasible, so is every feasible point, and an accepted point exceeds the bound by at most the relative tolerance.
- `C11_positive_part` — **C11** positive_part: projections are accepted as feasible, so is every feasible point, and an accepted point exceeds the bound by at most the relative tolerance.
- `C11_constrained_max_partial` — constrained_max. Partial: the full claim "every point of {0 ≤ x ≤ bound} is accepted" is false (`C11_constrained_max_fails`); proved for points whose coordinates are all at least the tolerance, and soundness (accepted points are within tolerance of the set) holds for all.
- `C11_constrained_max_fails` — The projection computed by `constrained_max.bound_prox` is reported infeasible by the same atom.
- `C11_constrained_positive_part_partial` — constrained_positive_part. Partial: false at points with a coordinate below the tolerance and when `bound = 0`.
- `C11_constrained_positive_part_fails` — Every projection computed by `constrained_positive_part.bound_prox` of a point with a nonpositive coordinate is reported infeasible by the same atom.
- `C11_max_positive_part_partial` — max_positive_part. Partial: needs `bound > 0`; at `bound = 0` see `C11_max_positive_part_fails`.
- `C11_max_positive_part_fails` — With `bound = 0` no point at all is feasible for max_positive_part, although 0 is in the set.
- `C11_constrained_max_lagrange_fails` — The lagrange-mode analogue: the output of `constrained_max.lagrange_prox` gets value `inf`.

### C12 An atom is always in exactly one of lagrange or bound mode

Construction succeeds exactly when one of lagrange/bound is given and nonnegative; afterwards through any sequence of set_lagrange / set_bound calls the mode never changes, wrong-mode calls raise and leave the atom unchanged, and the stored parameter is the last one successfully set.

Plan: State machine with Except; induction on operation lists.

- `C12_init` — construction succeeds exactly when exactly one parameter is given and it is nonnegative; then the atom is in the corresponding mode with that parameter.
- `C12_run_partial` — through any sequence of assignments of numbers the object refines the specification: the mode never changes, wrong-mode assignments raise AttributeError and change nothing, and the parameter is the last one successfully assigned. Missing: assignments of `None`, for which the claim is false (`C12_none_fails`), and the nonnegativity of assigned values, which is not checked (`C12_negative_fails`).
- `C12_mode_constant_partial` — specification consequence: the mode is never changed
- `C12_none_fails` — is false for assignments of `None`: `atom.lagrange = None; atom.bound = 3` switches an atom from lagrange to bound mode without an exception, through a state that is in neither mode.
- `C12_negative_fails` — negative values rejected by the constructor are accepted by the setters, and such an atom can no longer be copied.
- `C12_resolve` — a keyword parameter overrides the stored one; with no keyword the stored parameter is used in the matching mode and ValueError is raised in the other mode.
- `C12_copy` — copying an atom with a nonnegative parameter preserves mode and parameter.

### C13 get_conjugate returns the Fenchel conjugate

For an atom f(x)=lam*h(x-offset)+q(x) with q linear (coef 0), get_conjugate's nonsmooth_objective is sup_x <x,y>-f(x); with nonzero quadratic coefficient it is the smoothed conjugate; taking the conjugate twice yields a function equal to f.

Plan: Specification: IsConjugate f g := IsLUB {<x,y>-f x}. Parameter algebra of _work_out_conjugate.

- `C13_atomFn_conjugate` — Mathematical core of C13: documented functions of the pairs are Fenchel conjugate, in both directions.
- `C13_conjugate` — for an atom of any registered class, in either mode, with any array offset and any linear/constant quadratic (zero quadratic coefficient), `get_conjugate` returns an atom in the other mode with the same parameter whose documented function is the Fenchel conjugate of the documented function of the given atom.
- `C13_involution` — conjugating twice gives back an atom of the same class and mode with the same parameter, offset entries, linear term entries and constant; hence the same documented function.
- `C13_scalar_offset_fails` — needs array offsets: with a float offset 1 and a float linear term 1 in dimension 2 the constant of the conjugate is -1 instead of -2.
- `C13_value_lagrange` — In lagrange mode the value returned by `nonsmooth_objective` is the documented function, for the classes with full domain (with or without feasibility checking).
- `C13_value_bound` — In bound mode the value returned with feasibility checking is the documented function, except that points outside the set but within the relative tolerance `1e-5` are accepted.

### C14 identity_quadratic algebra preserves function values

q1+q2 evaluates to q1(x)+q2(x) for all x; collapsed() evaluates to q(x); objective(x,'both') equals (objective(x,'func'), objective(x,'grad')) and 'grad' is the gradient of 'func'; adding None changes nothing.

Plan: Ring identities with Option-valued fields.

- `C14_objective_func` — the constructor and mode 'func' evaluate the documented function, `None` arguments count as 0.
- `C14_objective_modes` — mode 'both' is the pair of modes 'func' and 'grad'; any other mode raises ValueError.
- `C14_objective_grad` — mode 'grad' is the gradient of mode 'func': exact second-order Taylor formula.
- `C14_add_none` — adding `None` changes nothing.
- `C14_collapsed_partial` — `collapsed()` evaluates to `q(x)` when the center is `None`, an array, the float 0, or the problem is one-dimensional. Missing: a nonzero float center in dimension ≥ 2, where the claim is false (`C14_collapsed_fails`).
- `C14_add_partial` — `q1 + q2` evaluates to `q1(x) + q2(x)`, same restriction on float centers.
- `C14_add_up_to_const` — without any restriction, `q1 + q2` and `collapsed` are right up to a constant that does not depend on `x`, so they have the right gradients and the right minimisers.
- `C14_collapsed_fails` — is false for float centers: `q = identity_quadratic(1, 1., None, 0)` at `x = (0,0)` is 1 but `q.collapsed()` is 1/2.
- `C14_iszero` — `iszero` implies that the function is identically 0.

### C15 recenter and conjugate of identity_quadratic

recenter(offset) returns (offset, q') with q'(x - offset) equal to q(x) up to an additive constant that does not depend on x, hence with the same minimisers; conjugate of a quadratic with coef != 0 is its Fenchel conjugate.

Plan: Ring identities; conjugate by completing the square.

- `C15_recenter` — `recenter(offset)` returns the (non-zero) offset and a quadratic that at `x - offset` equals `q(x)` up to a constant independent of `x`.
- `C15_recenter_minimisers` — hence the recentred problem has the same minimisers over any set of candidates and for any penalty.
- `C15_recenter_raises` — `recenter` only raises when a nonzero offset meets a `None` center.
- `C15_true_center` — `true_center` is the minimiser of the quadratic.
- `C15_conjugate` — the conjugate of a quadratic with positive coefficient and array (or zero, or absent) center is its Fenchel conjugate.
- `C15_conjugate_zero` — with `coef = 0` the code raises (ImportError) instead of returning a conjugate.

### C16 Coordinate cone projections

nonnegative, nonpositive, zero and zero_constraint cone_prox return the Euclidean projection on the cone they name, and the polar pairs sum to the input.

Plan: Coordinatewise.

- `C16_nonnegative` — port Verif.Model.Cones import Verif.Lemmas.Cone import Verif.Lemmas.L2 import Verif.Props.C04_Epigraph /-! # C16 and C17: cone projections -/ set_option linter.unusedSectionVars false set_option linter.unusedVariables false namespace Verif.Props open Verif.Model Verif.Lemmas Verif.Spec variable {K : Type*} [Field K] [LinearOrder K] [IsStrictOrderedRing K] /-! ## C16: coordinate cones
- `C16_nonpositive` — **C16** `nonpositive.cone_prox` is the projection on the nonpositive orthant.
- `C16_zero` — `zero` is the support function of `{0}`, so its cone is the whole space.
- `C16_zero_constraint` — **C16** `zero_constraint.cone_prox` is the projection on the origin.
- `C16_moreau` — The registered polar pairs (nonnegative, nonpositive) and (zero, zero_constraint) sum to the input.
- `C16_feasible` — `constraint` accepts every projected point.
- `C16_reject` — Conversely, with zero slack: whenever `constraint` rejects, the point is outside the cone.

### C17 Epigraph cone projections

l1/linf/l2 epigraph and epigraph_polar cone_prox return the projection on the epigraph cone (resp. its polar) for every input point.

Plan: Projection on convex cones by variational inequality; counterexample for l2.

- `C17_l1_epigraph` — l1 epigraph
- `C17_l1_epigraph_polar` — polar of the l1 epigraph: `{(u,s) : max|u| ≤ -s}`
- `C17_linf_epigraph_polar` — negative of the l1 epigraph: `{(u,s) : Σ|u| ≤ -s}`
- `C17_linf_epigraph` — sup norm epigraph: `{(u,s) : max|u| ≤ s}`
- `C17_l2_epigraph_partial` — l2 epigraph (partial): correct for every point with nonzero vector part that is not strictly inside the cone. Missing: points strictly inside are moved (`C17_l2_epigraph_fails`), and for a zero vector part the code divides by zero (`C17_l2_epigraph_nan`).
- `C17_l2_epigraph_polar_partial` — l2 epigraph polar (partial, same exclusions mirrored).
- `C17_l2_epigraph_fails` — is false for l2_epigraph: the point (1; 3) is inside the epigraph but is mapped to (2; 2).
- `C17_l2_epigraph_nan` — and for a zero vector part the result is not a number, in every dimension and for every norm.
- `C17_feasible` — `constraint` accepts the projected points of the four polyhedral epigraph cones.

### C18 Simplex projection and max prox

simplex.cone_prox returns the projection on the unit simplex {x>=0, sum x = 1}; maximum.cone_prox returns the minimiser of L/2||z-x||^2+max(z); max and the simplex indicator are conjugate.

Plan: uncon root finder + variational inequality.

- `C18_simplex` — for every nonempty vector the projection on the simplex is returned.
- `C18_maximum` — the proximal map of `max` with any positive Lipschitz constant.
- `C18_empty` — the empty vector raises IndexError in both
- `C18_simplex_proximal` — `proximal` of the simplex constraint with any own quadratic, offset and proximal quadratic.
- `C18_dual` — the registered pair is dual: `max x = max {⟨x,y⟩ : y in the simplex}`.
- `C18_constraint` — `constraint` accepts every point of the simplex, and rejects every point whose relative distance to it is at least the tolerance.

### C19 Pool-adjacent-violators computes the isotonic regression

isotonic_regression(y, weights) terminates and returns the unique nondecreasing vector minimising sum w_i (y_i - s_i)^2.

Plan: PAVA as block-stack recursion over lists; KKT invariant of blocks.

- `C19_isotonic_regression` — the weighted Cython version terminates after at most `N` passes, for every length, data and positive weights, with the isotonic fit.
- `C19_pav` — the pure Python version (unit weights) terminates after at most `N` pooling steps with the isotonic fit.
- `C19_versions_agree` — both versions return the same fit for unit weights.

### C20 SLOPE prox is optimal

slope.lagrange_prox returns the minimiser of L/2||z-x||^2 + lam*sum_i w_i |z|_(i) for nonincreasing weights w.

Plan: Rearrangement + isotonic optimality.

- `C20_isoPy` — the pure Python routine qualifies (termination within `n+1` rounds included).
- `C20_seminorm_spec` — the value is `λ` times the largest `Σ w_i |x_{π(i)}|` over all orderings `π` of the coordinates.
- `C20_lagrange_prox` — for every center, every positive nonincreasing weights and every tie-breaking of `argsort`, `lagrange_prox` returns the unique minimiser of `L/2‖z-x‖² + λ·slope(z)`.
- `C20_conjugate_bound_prox` — the dual constraint: `bound_prox` of the conjugate is the projection on the dual ball.
- `C20_support_function` — SLOPE is the support function of the unit ball of its registered dual.
- `C20_conjugate_support_function` — and conversely the registered dual is the support function of the SLOPE unit ball.

### C21 Group LASSO prox is optimal

group_lasso.lagrange_prox minimises L/2||z-x||^2+lam*sum_g w_g||z_g||_2 and the dual's bound_prox projects on {||z_g||<=bound*w_g for all g}, including zero-weight groups and zero blocks.

Plan: Blockwise l2 prox.

- `C21_seminorm` — the value reported by `group_lasso.seminorm` is the group norm.
- `C21_lagrange_prox` — `group_lasso.lagrange_prox` is the proximal map of `lam Σ_g w_g‖z[g]‖`; weights may be zero and blocks may vanish.
- `C21_dual_bound_prox` — `group_lasso_dual.bound_prox` is the projection on `{‖z[g]‖ ≤ bound * w_g for all g}`.
- `C21_bound_prox` — `group_lasso.bound_prox` is the projection on `{Σ_g w_g‖z[g]‖ ≤ bound}`, whatever order `np.argsort` gives to ties. Weights are 0 or at least `1e-20` (the guard of the root finder).
- `C21_dual_lagrange_prox` — `group_lasso_dual.lagrange_prox` is the proximal map of `lam * max_g ‖z[g]‖/w_g`, where a group of weight zero is constrained to vanish.
- `C21_duality` — the two norms are dual: for positive weights `groupDualNorm` is the support function of the unit ball of `groupNorm` (the inequality, and attainment for every `z`).
- `C21_dual_constraint_partial` — with positive weights, `group_lasso_dual.constraint` reports 0 exactly on the ball on which `bound_prox` projects; the projected point is therefore reported feasible.
- `C21_dual_constraint_fails` — with a zero weight the dual feasibility test is wrong: groups `{0}`, `{1}`, weights `(0, 1)`, point `(5, 0)`, bound 1 is accepted although the first block must vanish; the positional `False` that was meant for `check_feasibility` is bound to `nntol`.
- `C21_bound_prox_zero_weights_fails` — if every weight is zero, `group_lasso.bound_prox(x, bound=0)` raises (division by zero in the root finder) although the constraint holds everywhere.
- `C21_constructor` — **C21**: the penalty built by `group_lasso(labels, weights, lagrange=l)` from integer labels and a dictionary of weights has the value `l * Σ_g w_g ‖x[g]‖₂`, the sum over the labels that occur, `w_g` being the weight of the dictionary or the square root of the size of the group; in bound form with `check_feasibility` the value is 0 when that norm is at most the bound and infinite otherwise.

### C22 Sparse group LASSO prox is optimal

sparse_group_lasso.lagrange_prox (soft-threshold followed by group shrink) minimises L/2||z-x||^2+lam*(sum_i a_i|z_i|+sum_g w_g||z_g||).

Plan: Composition prox; direct optimality proof per group.

- `C22_constructor` — **C22**: the penalty built by `sparse_group_lasso(labels, lasso_weights, weights, lagrange=l)` has the value `l * (Σ_i a_i |x_i| + Σ_g w_g ‖x[g]‖₂)` for nonnegative `lasso_weights`.
- `C22_seminorm` — the value of the penalty.
- `C22_lagrange_prox` — `sparse_group_lasso.lagrange_prox` (soft threshold, then group shrinkage) is the proximal map of `lam (Σ_i a_i|z_i| + Σ_g w_g‖z[g]‖)`.
- `C22_dual_bound_prox` — the dual ball is a sum set; `sparse_group_lasso_dual.bound_prox` projects on `{u + v : |u_i| ≤ bound a_i, ‖v[g]‖ ≤ bound w_g}`.

### C23 Weighted l1 / sup norm proximal maps are optimal

weighted_atoms.l1norm.lagrange_prox/bound_prox and weighted_atoms.supnorm.lagrange_prox/bound_prox minimise the weighted problems, including zero weights.

Plan: Coordinatewise; weighted root finder of C01.

- `C23_l1_seminorm` — `l1norm.seminorm` is the weighted l1 norm.
- `C23_l1_lagrange_prox_partial` — `l1norm.lagrange_prox` is the proximal map of the weighted l1 norm; zero and infinite weights are allowed (for an infinite weight `lagrange` must be positive).
- `C23_l1_lagrange_zero_fails` — `lagrange = 0` with an infinite weight gives nan.
- `C23_l1_bound_prox` — `l1norm.bound_prox` is the projection on the weighted l1 ball, whatever the tie order. Finite weights are 0 or at least `1e-20`.
- `C23_sup_bound_prox_partial` — `supnorm.bound_prox` is the projection on `{w_i|z_i| ≤ bound}` (infinite weight: `z_i = 0`); with a zero weight `bound` must be positive.
- `C23_sup_bound_zero_fails` — `bound = 0` with a zero weight gives nan although the coordinate is unconstrained.
- `C23_sup_lagrange_prox_partial` — `supnorm.lagrange_prox` is the proximal map of `lam * max_i w_i|z_i|` (infinite weight: `z_i = 0`). If a weight is zero, `lagrange` must be smaller than `L Σ |x_i|/w_i` over the positive finite weights, see the counterexample below.
- `C23_sup_lagrange_prox_fails` — the claim fails for a zero weight and a large `lagrange`: weights `(0, 1)`, argument `(5, 1/10)`, `lagrange = 1`. The root finder returns 0 and the code evaluates `0 * inf`: the first entry is nan, although the proximal point is `(5, 0)`.
- `C23_conjugate_involution` — the conjugate atom carries the inverse weights, and inverting twice gives back the weights.

### C24 Every linear operator built from the affine combinators has the right adjoint

<T.linear_map(x), y> = <x, T.adjoint_map(y)> for every transform assembled from matrices, diagonal, selector, reshape, identity, scalar_multiply, composition, affine_sum, vstack, hstack, product, adjoint, residual, add_intercept, centering, normalize.

Plan: Deep embedding of the combinators as an inductive type; induction.

- `C24_adjoint_partial` — for every transform built from the combinators, `adjoint_map` is the adjoint of `linear_map`.
- `C24_repeated_selector_fails` — a selector with a repeated position has the wrong adjoint.
- `C24_linear` — `linear_map` is linear.
- `C24_matrix` — `linear_map` and `adjoint_map` are multiplication by one matrix and its transpose.
- `C24_matrix_of_combinators` — the matrices of the combinators: product, transpose, `I - T`, weighted sum, multiple, stacks, block diagonal, intercept column, difference of the two halves, column selection, `I - 11ᵀ/n`.
- `C24_shapes_partial` — `input_shape` and `output_shape` are the sizes accepted by `linear_map` and `adjoint_map`, unless an `aslinear` object occurs.
- `C24_aslinear_shapes_fails` — `aslinear` of a non-square transform reports swapped shapes.

### C25 affine_map is linear_map plus a constant

T.affine_map(x) = T.linear_map(x) + T.affine_map(0) for every transform (composition, sum, stacks, scalar multiples), and linear_map is linear.

Plan: Same induction, affine semantics with Option offsets.

- `C25_affine` — `affine_map(x)` is `linear_map(x)` plus the constant vector `affine_map(0)`.
- `C25_constant_of_combinators` — the constant of each combinator: offsets add, compose, scale and stack as for affine functions.
- `C25_offset_attribute_partial` — the attribute `affine_offset` of the stacking classes is `affine_map(0)`, `None` if that is zero.
- `C25_offset_attribute_fails` — the attribute is wrong for `composition` (the test on line 853 is inverted), `residual`, `scalar_multiply` and a transform wrapped by `affine_transform(T, None)`: it is `None` although `affine_map(0)` is not zero.

### C26 affine_smooth applies the chain rule

affine_smooth(f, T).smooth_objective(x,'both') returns (f(Tx), T' grad f(Tx)); if the atom's 'grad' is the derivative of 'func' then so is the composed one's; coef scaling multiplies both.

Plan: HasFDerivAt / directional derivative chain rule.

- `C26_value` — **C26** `affine_smooth(f, T)` evaluates to `f(Tx)` and `T'(grad f(Tx))` in every documented mode, whatever the transform and whatever atom.
- `C26_chain_rule_partial` — **C26** chain rule. If the atom's gradient is the gradient of its value at `Tx`, then the vector `affine_smooth` returns is the gradient of the composed value at `x`. Missing: transforms containing a `selector` with repeated positions, for which it is false (`C26_repeated_selector_fails`).
- `C26_coef` — **C26** (scaling) the value and the gradient of `quadratic_loss(shape, Q, coef=c, offset=o)` are `c` times those of the same loss with coefficient one.
- `C26_squared_error` — **C26** `squared_error(X, Y, coef=c)` is `c/2 ‖X β - Y‖²` with gradient `c X'(X β - Y)`, for every design matrix and every `β`: the two sign changes of the offset cancel.
- `C26_signal_approximator` — **C26** `signal_approximator(y, coef=c)` is `c/2 ‖β - y‖²` with gradient `c (β - y)`.
- `C26_repeated_selector_fails` — **C26** fails for a selector with a repeated position: the composed gradient is not the gradient of the composed value.
- `C26_bad_mode` — **C26** an undocumented `mode` makes `affine_smooth.smooth_objective` return `None` silently, although every atom in the library raises `ValueError` for it.

### C27 smooth sum adds objectives and gradients

sum([f1..fk], weights).smooth_objective equals the weighted sum of values and gradients; construction is rejected for negative weights or wrong lengths.

Plan: List induction.

- `C27_init` — **C27** (construction) `sum(atoms, weights)` succeeds exactly when there is at least one atom, the number of weights (all ones when none are given) is the number of atoms, and no weight is negative.
- `C27_weights` — **C27** the weights stored by a successful construction: those given, or all ones.
- `C27_sum` — **C27** for any number of atoms and any weights, `sum(atoms, weights)` evaluates to the weighted sum of the values and of the gradients, in every documented mode.
- `C27_gradient` — **C27** if every atom's gradient is the gradient of its value at `x` then so is the sum's.
- `C27_bad_mode` — **C27** an undocumented mode raises `ValueError`.

### C28 'grad' is the derivative of 'func' for every loss

For quadratic/gaussian, logistic, poisson, huber, huber_svm, cox and multinomial losses, smooth_objective(x,'grad') is the gradient of x -> smooth_objective(x,'func') at every x.

Plan: HasDerivAt / HasGradientAt of the value expression.

- `C28_gaussian` — **C28** gaussian_loglike: the value is `coef ∑ wᵢ (xᵢ - oᵢ - yᵢ)²/2` and the returned gradient is its gradient at every point, for all responses, offsets and weights.
- `C28_poisson` — **C28** poisson_loglike: the value is `coef ∑ wᵢ (exp tᵢ - cᵢ tᵢ)`, `t = x - o`, and the returned gradient is its gradient at every point.
- `C28_huber` — **C28** huber_loss with a positive smoothing parameter: the value is the weighted sum of Huber functions of the residuals and the returned gradient is its gradient at every point, the break points included.
- `C28_huber_svm_partial` — **C28** huber_svm with smoothing parameter 1: the value is the weighted sum of smoothed hinge losses of the margins `(2 yᵢ - 1) tᵢ` and the returned gradient is its gradient at every point. Missing: any other smoothing parameter, for which it is false (`C28_huber_svm_fails`).
- `C28_huber_svm_fails` — **C28** fails for huber_svm with any other positive smoothing parameter: there are binary data and a point at which the returned vector is not the gradient of the returned value.
- `C28_logistic_partial` — **C28** logistic_loglike. The returned gradient is the gradient of the returned value at every point where no `xᵢ - oᵢ` equals 100; where all are at most 100 the value is the binomial negative log-likelihood; and everywhere the value and the gradient are within `coef ∑ wᵢ mᵢ e⁻¹⁰⁰` and `coef wᵢ mᵢ e⁻¹⁰⁰` of the likelihood and its gradient. Missing: points with a coordinate at 100, where the value jumps (`C28_logistic_fails`).
- `C28_logistic_fails` — **C28** fails for logistic_loglike at `x = 100`: the value returned there has no gradient at all.
- `C28_quadratic_partial` — **C28** quadratic_loss: with no `Q`, a diagonal `Q`, a symmetric `Q` or a self-adjoint transform the returned gradient is the gradient of the returned value `coef/2 (x-o)'Q(x-o)` at every point. Missing: a `Q` that is not symmetric, which the constructor accepts and for which it is false (`C28_quadratic_fails`).
- `C28_quadratic_fails` — **C28** fails for `quadratic_loss` with a matrix that is not symmetric.
- `C28_multinomial_partial` — **C28** multinomial and baseline multinomial losses: where no linear predictor exceeds 50 in absolute value the value returned is `coef` times the weighted negative log likelihood of the counts at `x - offset`, and the gradient returned is the gradient of the value. Missing: beyond 50 the code clips the predictors (`C28_multinomial_fails`).
- `C28_multinomial_fails` — **C28** fails for the multinomial loss where a predictor exceeds 50: the value is constant in it, the gradient returned is not zero.
- `C28_mglm_partial` — **C28** for `mglm` with a multinomial loss: where no predictor is clipped the value is the weighted negative log likelihood of the predictors and the gradient returned is the gradient of the value in the coefficient matrix.
- `C28_stacked_partial` — **C28** stacked losses whose columns have no weights of their own (what the classmethods build): the value is `coef` times the sum over columns of the column losses, with the weights of the stack times those of the caller, and the gradient returned is its gradient wherever the column losses' are. Missing: columns with weights of their own (`C28_stacked_fails`).
- `C28_stacked_fails` — **C28** fails for columns with weights of their own: the columns share one weight array and multiply it in place, so the second column is weighted by both columns' weights. Two equal columns with weight 2 at `x = 1` give `2·1/2 + 4·1/2`, not `2·1/2 + 2·1/2`.
- `C28_cox_partial` — **C28** for the Cox loss: the gradient returned is the gradient of the value returned, at every point. (Partial for the same reason as `C51_value_partial`.)

### C29 Losses are convex

Each of the losses above is a convex function of the linear predictor for every accepted data set, so the first-order conditions the solver checks are sufficient.

Plan: ConvexOn via second derivative or sums of convex functions.

- `C29_multinomial_partial` — **C29** the multinomial losses are convex on the set of predictors that are not clipped, for nonnegative `coef` and weights. Missing: beyond it (`C29_multinomial_fails`).
- `C29_multinomial_fails` — **C29** fails for the multinomial loss over all arguments: clipping at -50 makes it concave there.
- `C29_gaussian` — **C29** gaussian_loglike is convex, for every response, offset, coefficient and weights the constructor accepts and every non-negative weights passed by the caller.
- `C29_poisson` — **C29** poisson_loglike is convex.
- `C29_huber` — **C29** huber_loss with a positive smoothing parameter is convex.
- `C29_huber_svm_partial` — **C29** huber_svm with smoothing parameter 1 is convex. Missing: other smoothing parameters; below 1 it is false (`C29_huber_svm_fails`).
- `C29_logistic_partial` — **C29** logistic_loglike is convex on the region where every `xᵢ - oᵢ` is at most 100. Missing: beyond 100, where it is false (`C29_logistic_fails`) although the value is within `coef ∑ wᵢ mᵢ e⁻¹⁰⁰` of a convex function (`C28_logistic_partial`).
- `C29_logistic_fails` — **C29** fails for logistic_loglike across 100: the returned value is not a convex function.
- `C29_huber_svm_fails` — **C29** fails for huber_svm with any smoothing parameter below 1: the returned value is not a convex function.
- `C29_cox_partial` — **C29** the Cox loss is convex in its argument (for nonnegative weights and risk sets of positive weight; otherwise it is nan).

### C30 hessian is the derivative of the gradient

For gaussian, logistic, poisson and cox losses, hessian / hessian_mult is the derivative of 'grad'.

Plan: HasDerivAt of the gradient entries.

- `C30_gaussian` — **C30** gaussian_loglike.hessian returns the diagonal of the derivative of the returned gradient at every point, for all offsets and weights.
- `C30_poisson_partial` — **C30** poisson_loglike.hessian, without an offset. Missing: with an offset, which `hessian` does not apply, it is false (`C30_offset_fails`).
- `C30_logistic_partial` — **C30** logistic_loglike.hessian, without an offset and with every linear predictor below 100. Missing: with an offset (`C30_offset_fails`) and with predictors above 100 (`C30_logistic_fails`) it is false.
- `C30_offset_fails` — **C30** fails with an offset: the poisson and logistic Hessians are evaluated at the wrong point.
- `C30_logistic_fails` — **C30** fails for logistic_loglike when one predictor exceeds 100: at `x = (0, 0, 200)` the middle entry is computed from `exp(100)` because the integer index array is negated bitwise (binary.py 170).
- `C30_glm_partial` — **C30** `glm.hessian(β)` is the derivative of `glm`'s gradient when neither the glm nor the loss has an offset and the loss' own Hessian is the derivative of its gradient at `Xβ`. Missing: offsets, which `glm.hessian` does not apply.
- `C30_cox_partial` — **C30** `hessian_mult(x, z)` of the Cox loss is the derivative of the returned gradient times `z`, at every point and for every direction, offsets included, for `coef = 1`. Missing: other coefficients, which `hessian_mult` ignores (`C30_cox_coef_fails`), and risk sets of weight zero.
- `C30_cox_coef_fails` — **C30** fails for the Cox loss with `coef = 2`: `hessian_mult` returns half the derivative of the gradient.

### C31 Evaluating an objective has no side effects

Evaluating smooth_objective of a glm any number of times at any points returns the same value for the same argument: evaluation history is irrelevant, caller-owned arrays are not modified.

Plan: Heap model with explicit mutation of case weight arrays; induction on call sequences; negation witness.

- `C31_stacked_partial` — **C31** a stacked loss leaves the caller's weights alone if neither it nor its columns carry weights, and its later results do not depend on the evaluation.
- `C31_stacked_fails` — **C31** fails for a stacked loss with weights: evaluating it multiplies the caller's array in place.
- `C31_caller_partial` — **C31** a loss without case weights of its own leaves the caller's array as it was. Missing: with own case weights it does not (`C31_caller_fails`).
- `C31_caller_fails` — **C31** fails for the caller's array: a gaussian loss with case weights `1/2` halves the array it is given.
- `C31_glm_partial` — **C31** history is irrelevant for a glm whose saturated loss has no case weights of its own: after any sequence of evaluations and Hessians, every evaluation gives what it would have given at the start, and the glm's (caller's) case weights array is unchanged. Missing: a saturated loss with its own case weights (`C31_glm_fails`).
- `C31_glm_classmethods` — **C31** for the glms built by `glm.gaussian`, `glm.logistic`, `glm.poisson`, `glm.huber` and `glm.huber_svm`, with any offsets and case weights, history is irrelevant.
- `C31_glm_fails` — **C31** fails when the saturated loss has its own case weights: two evaluations at the same point differ, since each multiplies the glm's weights by the loss' once more.
- `C31_cox` — **C31** evaluation history is irrelevant for the Cox loss: after any sequence of evaluations and Hessian products, which all write into the object's work buffers, every result is what it would have been at the start.
- `C31_cox_alias_fails` — **C31** fails for a gradient returned by a Cox loss with `coef = 1`: it is the object's buffer, so the next evaluation overwrites the array the caller holds.

### C32 copy preserves the objective; subsample restricts it

copy(loss) has the same objective at every point as loss; loss.subsample(idx) is the loss restricted to the selected cases (with existing case weights), successive subsampling intersects the index sets, and the original is unchanged.

Plan: Objects as records; __copy__ modelled literally; negation witnesses.

- `C32_mglm_copy` — **C32** for `mglm`: a copy evaluates alike everywhere.
- `C32_mglm_subsample_partial` — **C32** for `mglm`: `subsample(idx)` is the likelihood of the cases in `idx` with the same coefficients and data (where no predictor is clipped).
- `C32_multinomial_subsample_fails` — **C32** fails for the multinomial losses themselves: `subsample(idx)` evaluates exactly like the original whatever `idx` is (the weights it sets are never consulted).
- `C32_multinomial_shared_fails` — **C32** fails for the multinomial losses: with weights given, `subsample` writes into the original's own weight array (`copy` is shallow), here setting the weight of case 0 of the *original* to zero.
- `C32_multinomial_subsample_weights` — **C32** the weight array the result of `subsample(idx)` refers to holds the previous weights (ones when there were none) on the cases of `idx` and zeros elsewhere.
- `C32_stacked_partial` — **C32** `copy` and `subsample` of a stacked loss (columns without weights of their own): the copy evaluates alike, the subsample is the sum of the column losses evaluated with the weights of the cases outside `idx` set to zero.
- `C32_copy_smooth` — **C32** `copy(loss)` never raises for gaussian, poisson and logistic losses, and evaluates like the loss at every point, in every mode, with every `case_weights` argument, and so does its Hessian.
- `C32_copy_smooth_partial` — **C32** the same for all five losses when the loss has no case weights. Missing: huber_loss and huber_svm with case weights, which their `__copy__` drops (`C32_huber_copy_fails`).
- `C32_huber_copy_fails` — **C32** fails for huber_loss and huber_svm: the copy of a loss with case weight 2 has half its value.
- `C32_copy_objective_partial` — **C32** the full `objective` (value plus the quadratic) of a copy is the loss' own for gaussian losses. Missing: poisson and logistic, whose constructor adds the deviance constant again (`C32_copy_objective_fails`).
- `C32_copy_objective_shift_partial` — **C32** what a copy of a poisson or logistic loss does to the full `objective`: it is shifted at every point by the same deviance constant, so it is preserved exactly when that constant is zero, and differences of objective values (hence minimisers) are always preserved. Missing: equality itself (`C32_copy_objective_fails`).
- `C32_copy_objective_fails` — **C32** fails for the full `objective` of poisson and logistic losses: each copy adds the deviance constant once more (here `- log 2` for the count 2, and `- 2 log 2` for one success out of two).
- `C32_subsample_partial` — **C32** `loss.subsample(idx)` never raises and is the loss restricted to the selected cases, existing weights kept: there are per-case losses `ℓᵢ` and derivatives `dᵢ` such that the loss evaluates to `coef ∑ᵢ wᵢ ℓᵢ(xᵢ - oᵢ)` and the subsampled loss to the same sum over `i ∈ idx`, with gradient entries zero outside. For gaussian, poisson and logistic losses always, for the huber losses when there are no case weights. Missing: the huber losses with case weights (`C32_huber_copy_fails` shows the copy the method starts from has lost them).
- `C32_subsample_twice` — **C32** successive subsampling intersects the index sets: `loss.subsample(A).subsample(B)` evaluates like `loss.subsample(A ∩ B)` everywhere.
- `C32_heap_refines` — The calls on heap objects compute what `copy` and `subsample` compute on values: a refinement.
- `C32_original_unchanged` — **C32** the originals are unchanged: after any sequence of copy and subsample calls on any of the objects alive, every object that existed before still is what it was, weights included, hence evaluates as before.
- `C32_glm_copy` — **C32** `copy` of a glm built by one of the classmethods (all five losses, any offsets and weights), or obtained from such a glm by copies and subsamples, succeeds and evaluates like the glm everywhere.
- `C32_glm_subsample` — **C32** `glm.subsample(idx)`: the loss restricted to the selected rows, existing case weights kept; the gradient is the sum over the selected rows.
- `C32_cox_copy` — **C32** `copy` of a Cox loss succeeds and evaluates alike everywhere, whatever permutation its new `argsort` picks.
- `C32_cox_subsample_partial` — **C32** `subsample(idx)` of a Cox loss is the partial likelihood of the selected cases (both the sum over events and the risk sets range over `idx`), if the largest time still has positive weight. Missing: dropping all such cases makes the value nan (`C32_cox_subsample_fails`).
- `C32_cox_subsample_fails` — **C32** fails for a subsample that drops the case with the largest time: its value is nan.

### C33 FISTA bookkeeping invariants

In every run of FISTA.fit: inverse step size stays positive; a backtracking step is accepted only if the quadratic upper bound holds at the accepted point; the momentum weight is >= 1; the returned history has at most max_its entries; with monotonicity_restart the objective of the kept iterate never increases beyond the relative slack 1e-10.

Plan: FISTA.fit as a step function on a state record with fuel = max_its; oracle functions abstract.

- `C33_step_weight_history` — **C33** In every run of `fit` that returns, on any problem whatsoever: the returned history has at most `max_its` entries (`max_its` the argument if it is a positive number, 10000 otherwise), the step size is positive and the momentum weight at least 1 at every pass and at the end.
- `C33_accept_partial` — **C33** (convex smooth part; see `C33_accept_fails` for what happens otherwise). Every step taken in a run with backtracking is the exact proximal gradient step from the working point with step size `step`, and satisfies the quadratic upper bound with constant `1/step` at the proposed point - in both branches of the acceptance test.
- `C33_monotone_partial` — **C33** (any problem; the first two passes are not protected, see `C33_monotone_convex` and `C33_monotone_fails`). With `monotonicity_restart`, from the third entry of the history on, a finite kept objective is never followed by `inf` or by a value larger than it by more than `1e-10 * max(|obj|, 1)`.
- `C33_monotone_convex` — **C33** For a convex problem with a correct proximal map, with backtracking (default) and `monotonicity_restart` (default), *every* consecutive pair of the history obeys the slack: the unprotected first two passes are plain proximal gradient steps and cannot increase the objective.
- `C33_no_zero_step` — **C33** (exact arithmetic) `fit` never raises `stepsize zero reached`, on any problem.
- `C33_terminates` — **C33** If the gradient is `M`-Lipschitz and the proximal map never raises then, for every start and every setting of the other arguments, the backtracking loops end and `fit` returns. (`fit` raises if the objective at the start is nan; for an `IsProblem` it never is.)
- `C33_step_bound` — **C33** If the gradient is `M`-Lipschitz, backtracking never makes the step small: at every pass of every run that returns, the step size is at least `min(start, 1/(2 M alpha))`, where `start` is the step the solver starts with.
- `C33_smooth_atom_problem` — Any smooth atom with its own quadratic (`smooth.solve`) is a problem in the sense above, with `h` the value of the quadratic.
- `C33_accept_fails` — **C33 fails without convexity** (both the acceptance claim and monotonicity). The smooth function `8x³+6x²+x` with its exact gradient and the exact proximal map, started at 0 with all arguments at their defaults except `max_its=1`: the backtracking test compares gradients because the smooth value did not change, and accepts at once the step to `-1/2`, where the quadratic upper bound is false and the objective is larger than at the start by 1/4.
- `C33_keeps_minimiser` — **C33** FISTA keeps a solution: started at a minimiser of a convex problem whose proximal map does not raise, `fit` returns and leaves the coefficients exactly as they are, for every setting of tolerance, iteration limits, restarts, stopping rule and (positive) step size.

### C34 Proximal-gradient fixed points are exactly the minimisers

For a convex differentiable smooth part and any atom with a correct prox, x is a minimiser of the composite objective iff the proximal step at x (any step L>0) returns x.

Plan: Convex analysis over an abstract prox.

- `C34_fixed_point` — **C34** For a convex loss with correct gradient and a convex penalty with a correct proximal map, for every step `L > 0` at which the proximal step from `x` returns `z`: `x` minimises the objective of the problem (`f + h + q1 + q2` over `S`) iff `z = x`.

### C35 A prox step that passes the backtracking test decreases the objective

If the quadratic upper bound holds at the proximal point z of x with step L, then F(z) <= F(x) - L/2||z-x||^2, and for convex problems F(z)-F(u) <= L/2(||x-u||^2-||z-u||^2) for every u, so k accepted plain steps with constants <= L are within L||x0-u||^2/(2k) of optimal.

Plan: Standard three-point inequality; induction over steps.

- `C35_sufficient_decrease` — **C35** sufficient decrease: if the quadratic upper bound holds at the proximal point `z` of a feasible `x` then `F(z) ≤ F(x) - L/2‖z - x‖²`. The loss need not be convex.
- `C35_one_step` — **C35** one accepted step, compared with any feasible `u`.
- `C35_rate` — **C35** `k` accepted plain steps with constants `≤ L`, from any start: `F(x_k) - F(u) ≤ L‖x_0 - u‖²/(2k)` for every feasible `u`.
- `C35_fista_rate` — **C35** (acceleration). A run of `fit` with backtracking, no restarts and at most 99 passes (at pass 100 the code tries a longer step) on a convex problem: the point proposed at pass `k` (from 0) with step size `step` satisfies `F - F(u) ≤ 2‖x_0 - u‖² / (step (k+2)²)` for every minimiser `u`.
- `C35_fista_rate_lipschitz` — **C35** (acceleration, rate in terms of the problem). If moreover the gradient is `M`-Lipschitz, the step size in the bound can be replaced by `min(start_step, 1/(2 M alpha))`: the rate does not depend on the run.
- `C35_fista_rate_fixed` — **C35** (acceleration without backtracking, any number of passes). With `perform_backtrack = False` and a value `lipschitz` of the problem that really bounds the gradient's Lipschitz constant, the point proposed at pass `k` satisfies `F - F(u) ≤ 2 L ‖x_0 - u‖² / (k+2)²` for every minimiser `u`, however long the run.
- `C35_stopping_fails` — **C35** fails: the default stopping rule is not a certificate. For every tolerance and every gap there is a convex problem (`f = c/2 x²` in one dimension, gradient `1/2`-Lipschitz, exact proximal map) and a start from which `fit`, with all other arguments at their defaults except `min_its = 1`, stops after one recorded pass because the objective changed by a relative amount below the tolerance, while the returned point is worse than the minimum by more than the gap.

### C36 simple_problem.solve leaves the problem's quadratic as it was

After solve(quadratic=q) returns, problem.quadratic is what it was before, whatever q was, for any sequence of solves; the objective minimised in each solve is smooth + atom + problem quadratic + q.

Plan: State machine with Except.

- `C36_objective` — **C36** the object FISTA works on inside `simple_problem.solve` is the problem `f + h + q1 + q2`: this is the objective it records and the problem whose proximal steps it takes.
- `C36_restores_partial` — **C36** (calls that return; see `C36_raise_fails`). After any sequence of `solve` calls that all return, whatever quadratics were passed, the quadratic of the problem is the original one, and so are the loss and the atom.
- `C36_solve_objective` — **C36** What a call `solve(q)` minimises: it runs FISTA on the problem whose nonsmooth part is the atom plus the quadratic of the loss plus the quadratic of the problem plus `q` (up to a constant, which is zero unless a quadratic has a nonzero float center, C14); the first entry of the history is that objective at the coefficients the problem had, and the value returned with `return_optimum` is that objective at the coefficients returned.
- `C36_raise_fails` — **C36 fails for a call that raises**: on the lasso, `solve(identity_quadratic(-1, ...))` makes the first proximal step raise ValueError (total coefficient 0), and the quadratic of the problem keeps the added part.

### C37 separable problems: the joint prox is the blockwise prox

separable.proximal returns the minimiser of the sum of atoms on disjoint blocks; overlapping selectors are rejected by the constructor.

Plan: Finset partition; has_overlap modelled literally.

- `C37_objective` — `nonsmooth_objective` is the sum over the blocks.
- `C37_proximal` — on disjoint groups `separable.proximal(q)` returns the unique minimiser of `q(x) + Σ_b pen_b(x[group_b])`, whatever the atoms, the quadratic and the coordinates left unpenalised.
- `C37_proximal_objective` — when the value `nonsmooth_objective` reports is the function the atoms' proximal maps solve for, the point returned by `separable.proximal(q)` minimises `q + nonsmooth_objective`.
- `C37_proximal_total` — on a quadratic with an array center and nonzero coefficient the only errors of `separable.proximal` are the errors of the atoms.
- `C37_rejects_partial` — the constructor called with `test_for_overlap=True` raises exactly when two groups select different sets of positions with a common element. Missing: the default is no test, and two groups selecting the same set are never detected (`C37_rejects_fails`).
- `C37_l1norm_correct` — the atom `l1norm` meets the hypothesis of `C37_proximal`
- `C37_rejects_fails` — fails as stated: with the default arguments, and even with `test_for_overlap=True`, the constructor accepts two atoms on the same coordinate, and the point `proximal` then returns does not minimise the objective.

### C38 BFGS update satisfies the secant equation and stays positive definite

After every accepted update of the quasi-Newton matrix the secant equation holds and positive definiteness is preserved for the whole history.

Plan: Matrix algebra over Fin n.

- `C38_secant` — after every accepted update the secant equation `B' s = y` holds (no assumption on the matrix, the points or the sign of the curvature).
- `C38_posDef_step` — an accepted update with positive curvature `y·s > 0` keeps a symmetric positive definite matrix symmetric positive definite.
- `C38_history_partial` — from a symmetric positive definite start, positive definiteness is preserved over the whole history of accepted updates, provided every accepted pair has positive curvature. Missing: the code also accepts pairs with `-1e-5 ≤ y·s < 0` (`C38_negative_curvature_fails`).
- `C38_init` — the initial matrix of the constructor is symmetric positive definite for every symmetric positive semidefinite guess other than 0.
- `C38_convex_never_raises` — gradients of a convex loss never make the update raise: the curvature of any two points is nonnegative.
- `C38_solve` — in a run of `quasi_newton.solve` on a loss with strictly monotone gradient, whatever the inner solver and the line search return, the update never raises, the matrix is symmetric positive definite at the end, and the matrix can only become non-finite when the run sits at the point 0 and the computed step is 0.
- `C38_inner_problem` — the problem handed to the inner solver, `½ uᵀBu + (G - Bx)·u + P(u)`, has the documented second order model as objective up to a constant.
- `C38_fixed_point` — a point is a fixed point of the exact inner problem exactly when it minimises the composite objective (convex loss, convex penalty, positive definite matrix).
- `C38_negative_curvature_fails` — fails as stated: an update with slightly negative curvature is accepted and destroys positive definiteness.
- `C38_null_solution_fails` — fails as stated: when the solution is 0 and the run starts there, as in a lasso with large lagrange, the convergence test compares `0 < 0`, the update divides by zero and the matrix becomes non-finite.

### C39 KKT check certifies optimality of the lasso path

If lasso_path.check_KKT at tol=0 flags no active and no inactive coordinate then solution minimises loss + lam*sum w_i|b_i| (convex loss, grad its gradient); with tol>0 the suboptimality is bounded by tol times lam*sum w_i(|b_i|+|u_i|)-type terms.

Plan: First-order optimality for convex functions.

- `C39_assertion` — The assertion `inactive_ranks >= 0 iff inactive_terms > 1 + tol` on line 372 never fires.
- `C39_suboptimality` — if `check_KKT` at tolerance `tol` reports no failing coordinate for `(grad, b)`, where `grad` is the gradient at `b` of a convex loss, then `b` is optimal for `loss + lam ∑ wᵢ|bᵢ|` up to `tol` times `∑ lam wᵢ |uᵢ - bᵢ|` (penalised coordinates) plus `mean weight * |uᵢ - bᵢ|` (unpenalised ones).
- `C39_optimal` — at tolerance 0 the checked point minimises the penalised problem.
- `C39_complete` — , converse: every minimiser passes the check at every tolerance `≥ 0`, so the check never rejects an exact solution.
- `C39_all_unpenalized_fails` — needs a positive weight: with all weights 0 the mean of the positive weights is nan, every comparison with it is False, and the check passes at a point whose gradient is not 0.

### C40 strong_rules only discards what it re-checks

Every solution appended by strong_rules for a lagrange value whose loop ended without the convergence warning passed the KKT screen on all groups, whatever the strong set was: screening can not lose an active variable silently.

Plan: Loop model over an abstract path object.

- `C40_screen_partial` — for every path object, every subproblem solver (it may be inexact, stateful, adversarial), every strong set rule, every lagrange sequence and starting point: a solution appended without the convergence warning has passed the KKT check over ALL groups, at its own lagrange value, with the gradient at the linear predictor of the subproblem.
- `C40_screen_zero_start` — started at the zero solution, the check was made with the gradient of the loss at the appended solution itself, and the recorded deviance is that of the appended solution.
- `C40_terminates` — `strong_rules` always ends, with one solution per lagrange value after the first, in order.
- `C40_from_solver` — started at the zero solution, every appended solution (with or without the warning) is an answer of the subproblem solver at its own lagrange value, extended by zero: nothing is left over from earlier lagrange values.
- `C40_lasso_check_active` — for the lasso path with `check_active`: a solution appended without the warning is optimal for the full elastic net problem at its lagrange value up to the tolerance of the check, whatever the subproblem solver did.
- `C40_lasso_exact` — for the lasso path with the default `check_active = False`, when every feature is penalised and the subproblem solver is exact: a solution appended without the warning is optimal up to the tolerance of the check.
- `C40_unpenalized_fails` — With an unpenalised intercept and the default `check_active = False`: the intercept never enters a subproblem, but its null value stays in the solution. Started at the null solution `(1, 0)` with its gradient `(0, -1)`, with an exact subproblem solver, the run appends `(1, 7/10)` at the lagrange value `1/2` without a warning; its objective is larger than that of the null solution, and the gradient used in the check is not that of the loss at the appended solution.
- `C40_strong_rule` — **C40** The sequential strong rule of the lasso path: unpenalised features are never discarded, and if the gradient at the next solution moves by at most the change of the lagrange parameter (per unit of weight) — the assumption behind the rule — then every discarded feature satisfies the optimality condition of a zero coefficient at the next lagrange parameter.
- `C40_strong_set` — **C40** exactly the features whose scaled gradient exceeds `2 lagrange_new - lagrange_cur`, and the unpenalised ones, are kept.
- `C40_path_strong_set` — **C40** the lasso path object screens with this rule: its strong set at `(lagrange_cur, lagrange_new, gradient)` is the one above.
- `C40_path_check_on` — **C40** the check of the lasso path on a set of features agrees with the check on all of them: it flags an inactive feature exactly if the feature is in the set and the full check flags it, and the same for an active penalised feature (for unpenalised ones the threshold depends on the mean weight of the set).

### C41 basil solves lagrange values in order and terminates

basil appends solutions for the lagrange sequence in order without gaps or repetitions, and terminates when the subproblem solver is exact on its candidate set.

Plan: Loop model with fuel; measure for termination.

- `C41_order_partial` — for every path object, subproblem solver and (strictly decreasing) lagrange sequence: when `basil` returns, it has appended exactly one solution for each value of the sequence, in order.
- `C41_screen` — every appended solution passed the screen for inactive groups over all groups at its own lagrange value. When the starting solution vanishes outside the unpenalised groups, the gradient of the check is that of the loss at the appended solution.
- `C41_terminates` — when the subproblem solver is exact on its candidate set, `basil` ends after at most `length of the sequence * (number of groups + 1) + number of groups + 1` rounds, with one solution per lagrange value.
- `C41_from_solver` — Every solution is an answer of the solver, extended by zero, on a subproblem that contains the unpenalised groups.
- `C41_lasso` — for the lasso path and an exact subproblem solver: `basil` ends with one solution per lagrange value, and each of them is optimal for the full elastic net problem up to the tolerance of the KKT check. Features may be unpenalised; the starting solution vanishes at the penalised features.
- `C41_ties_fails` — A repeated lagrange value is skipped when it falls into another round: with `step_lagrange = 1` and the sequence `[2, 2, 1]` only two solutions are returned.
- `C41_inexact_solver_fails` — With a subproblem solver that stays at zero `basil` never returns: no number of rounds suffices.

### C42 Cross-validation folds partition the cases evenly

For every n and integer cv>=1 and every shuffle, the folds' test sets are disjoint, cover all n cases, train is the complement, and fold sizes differ by at most one.

Plan: Nat arithmetic on floor(i*cv/n).

- `C42_partition` — whatever the rounding, the number of folds and the shuffle: every case is in the test set of exactly one fold, the training set is the complement of the test set, and no test set is empty.
- `C42_sizes_partial` — , exact arithmetic: every test set has `⌊n/cv⌋` or `⌊n/cv⌋ + 1` cases, so two test sets differ by at most one case; and there are exactly `cv` folds when `cv ≤ n`.
- `C42_rounded_sizes_partial` — in floating point: when the rounding has relative error at most `ε` and `n * cv` is small compared to `1/ε`, every test set has between `⌊n/cv⌋ - 1` and `⌊n/cv⌋ + 2` cases: test sets differ by at most three cases.
- `C42_ieee_sizes_partial` — for the IEEE arithmetic of the code: as long as `n * cv ≤ 2⁵¹` the test sets have between `⌊n/cv⌋ - 1` and `⌊n/cv⌋ + 2` cases.
- `C42_ieee_sizes_fails` — In IEEE double arithmetic the sizes can differ by two: with 44 cases and 22 folds there is a test set of three cases and one of a single case, whatever the shuffle.
- `C42_ieee_leave_one_out_fails` — Leave-one-out in IEEE double arithmetic: with `cv = n = 22` two cases share a fold and there are only 21 folds.
- `C42_coef_factor` — With at least two folds and two cases the training sets are nonempty, so the factor applied to the training loss is `n / (n - size of the test set)`.
- `C42_one_fold_fails` — With a single fold the training set is empty and the factor divides by zero.

### C43 The first lagrange value is the null threshold

default_lagrange_sequence returns a strictly decreasing sequence starting at lagrange_max/alpha, and 0 (or the null solution) solves the penalised problem exactly for lagrange >= lagrange_max.

Plan: Optimality conditions at 0.

- `C43_sequence` — with at least two steps, `0 < lagrange_proportion < 1` and a nonzero gradient on the penalised coordinates, the default sequence has `nstep` entries, starts at `lagrange_max / alpha`, ends at `lagrange_proportion * lagrange_max / alpha`, and is strictly decreasing.
- `C43_one_step_fails` — fails for `nstep = 1`: the only value is `lagrange_proportion * lagrange_max / alpha`.
- `C43_null_optimal` — let `b₀` be the null solution (0 on the penalised coordinates, gradient 0 on the others) of a convex loss. For every `lam` with `alpha * lam ≥ lagrange_max`, `b₀` minimises `loss + alpha*lam ∑ wᵢ|bᵢ|`.
- `C43_threshold` — `lagrange_max` is the exact threshold: below it the null solution is not optimal.

### C44 Trend-filter operators

difference_transform annihilates polynomials of degree < order at distinct sorted knots; trend_filter_inverse is a right inverse of the first order trend filter with mean-zero output and its adjoint_map is its transpose.

Plan: List/Fin sums.

- `C44_differences_of_polynomials` — for pairwise distinct knots (in any order; sorted first with `sorted=False`), row `i` of `difference_transform(X, order)` maps the values at the (sorted) knots of a polynomial `Σ_{k ≤ order} a_k t^k` to its leading coefficient `a_order`; in particular polynomials of degree `< order` are annihilated.
- `C44_trend_filter` — the same for `trend_filter`, and `adjoint_map` is its transpose.
- `C44_right_inverse_partial` — with sorted knots the first order trend filter undoes `trend_filter_inverse` at every position where the two knots differ (everywhere for distinct knots), and the output of `trend_filter_inverse` has mean zero for any knots. Missing: unsorted knots, see `C44_unsorted_inverse_fails`.
- `C44_inverse_adjoint_partial` — `adjoint_map` of `trend_filter_inverse` is the transpose of `linear_map` on 1-dimensional arrays.
- `C44_unsorted_inverse_fails` — fails for unsorted knots: `trend_filter_inverse` uses the steps of the sorted knots, `trend_filter` those of the knots as given, so with knots `1, 0` the composition is `-1` instead of the identity.
- `C44_inverse_adjoint_2d_fails` — fails for 2-dimensional arrays: `adjoint_map` accumulates along the wrong axis.

### C45 Multiscale transform adjoint

multiscale.linear_map returns scaled interval means and adjoint_map is its transpose for every size and minsize.

Plan: Prefix sums.

- `C45_all_slices_partial` — without `slices` the intervals used are exactly the `[i, j)` with `j - i ≥ minsize` and `j ≤ p - 1`, each once.
- `C45_all_slices_fails` — does not hold as documented ("the average over all intervals of a minimum size"): no interval ending at the last position is ever used.
- `C45_interval_means` — entry `k` of `linear_map(x)` is the scaled mean of the centered signal over interval `k`, in both computations.
- `C45_adjoint` — `adjoint_map` is the transpose of `linear_map`, for every `p`, `minsize ≥ 1`, list of intervals and scaling.

### C46 2D image difference operator has one row per lattice edge

formD(m,n) has exactly the grid-graph edges as rows, each once with +-1 entries.

Plan: Row construction as index arithmetic; bijection with edges.

- `C46_formD` — every row of `formD(m, n)` is zero or the difference `x_u - x_v` across a lattice edge, and every edge of the lattice has exactly one row.
- `C46_formD_smaller` — for `formD_smaller`: no zero rows; the rows are exactly the lattice edges, each once.
- `C46_adjoint` — `image2d_differences.adjoint_map` is the transpose of `linear_map`.

### C47 normalize centers and scales

normalize(X).linear_map applied to any vector has mean zero (center=True) and every normalised column has the requested sum of squares; adjoint_map is its transpose.

Plan: Fin sums.

- `C47_sparse_fails` — `normalize` fails only for sparse input with `center=False, scale=True` (`tmp` is undefined).
- `C47_returns_partial` — in every other case a transform is returned.
- `C47_unscaled` — without scaling the result is the (centered) matrix.
- `C47_centered` — with `center=True` every value of `linear_map` sums to zero; the adjoint is right in all cases, also with the intercept column added.
- `C47_scaled` — with `scale=True` every column that is not constant (not zero, without centering) has sum of squares `value² (n - ddof)` (`value² (n - ddof + 1)` without centering), the others are zero.

### C48 Smoothed atoms have gradient equal to the dual maximiser

For atom.smoothed(q) with q.coef>0, smooth_objective value is sup_u <x,u> - f*(u) - q(u), its gradient is the maximiser, and the gradient is 1/coef Lipschitz.

Plan: Conjugate smoothing theorem over abstract prox.

- `C48_smoothed` — for every seminorm atom `f` (any class, either mode, any array offset and linear term) and every smoothing quadratic `q` with positive coefficient, `f.smoothed(q)` succeeds; its `smooth_objective` returns in the three modes a function `V` and a map `G` with `V x = sup_u ⟨x,u⟩ - f*(u) - q(u)` attained exactly at `G x`; `G` is the gradient of `V`; and `G` is Lipschitz with the constant `1/coef` stored in the attribute `lipschitz`.
- `C48_zero_coef_rejected` — a smoothing quadratic with zero coefficient is rejected, whatever the atom.
- `C48_atom_with_quadratic_fails` — fails for an atom which already has a quadratic term: `smoothed` raises TypeError (an unknown keyword is passed to the constructor of `smooth_conjugate`) for every valid smoothing quadratic.

### C49 sklearn wrapper column conventions

_check_y_arg returns response, case weights and offset from the documented columns for each flag combination; score uses sample_weight.

Plan: Small decision table + lists.

- `C49_no_columns` — no flag: the whole argument is the response.
- `C49_weights_column` — `case_weights=True` only: the last column is the case weights, the others (squeezed) the response.
- `C49_offset_column` — `offset=True` only: the last column is the offset.
- `C49_both_columns` — both flags: the last but one column is the case weights and the last the offset.
- `C49_response_shape` — with at least two observations the response keeps its observations: one response column gives a vector, several columns stay a matrix.
- `C49_single_observation_fails` — fails for one observation: the squeezed response is not a vector of length one but a 0-dimensional array, and a two column response (successes and trials, times and censoring) becomes a vector.
- `C49_missing_columns` — the flags are checked against the argument: a one dimensional `y`, or one without room for the flagged columns, raises.
- `C49_score_weights` — `score` with case weights and offset: `_saturated_score` receives the linear predictor minus the offset, the response, and the case weights times the sample weights.
- `C49_sample_weight_ignored_fails` — fails: without a case weight column `score` ignores `sample_weight` altogether, for every estimator, argument and sample weights.
- `C49_score_mutates_fails` — fails: scoring with sample weights overwrites the case weight column of the caller's `y` by the product.
- `C49_gaussian_scores` — the Gaussian scores with case weights, an offset and sample weights (nonnegative products), one response column and `n ≠ 1`: minus the weighted deviance of the offset-corrected predictions, the same divided by `n`, and the weighted R².
- `C49_fit_score` — fitting and scoring read the same columns and use the offset with the same sign: on the training data the `deviance` score at any coefficients is `-2 / coef` times the loss that `fit` minimises.
- `C49_accuracy` — `accuracy` of the logistic regression estimator is the fraction of observations whose label is predicted.
- `C49_classifier_accuracy_fails` — fails for the classifiers: `score` compares the labels with the *linear predictors*. Whenever no linear predictor equals a label the reported accuracy is 0 — also when `predict` gets every label right, as in the witness.
- `C49_logistic_proba` — `predict_proba` of the logistic classifier is a probability, above one half exactly when `predict` says true.
- `C49_multinomial_proba_fails` — fails for `predict_proba` of the multinomial classifier: three observations and two classes raise, and two observations of two classes give a first row that sums to 2/3.

### C50 gauge bisection brackets the dual norm

The dual gauge computed by bisection (sparse group penalties) returns a value within the stated relative tolerance of the true gauge.

Plan: Bisection loop invariant.

- `C50_bisection` — the search itself. If the membership test accepts every scale from the gauge `g` on, and accepts no scale much below `g` (`g ≤ (1 + η) t + δ` for accepted `t`), the search ends and its answer is within relative tolerance `τ = tol / (1 - tol/2)` of `g`, up to `η` and `δ`.
- `C50_dual_norm_exists` — the dual norm of the penalty is finite as soon as every feature is penalised.
- `C50_sparse_group_partial` — `gauge_function_dual` of a sparse group LASSO atom, i.e. `sparse_group_lasso_dual.seminorm` with lagrange 1, for every point: the search ends, and its answer is within relative tolerance `tol / (1 - tol/2)` of the dual norm `sup {⟨x,z⟩ : Σ a_i|z_i| + Σ w_g‖z[g]‖ ≤ 1}` — up to the factor `1 + η` the tolerance `1e-7` of `inside_set` costs, which is what is missing from the full property. `ρ` is any lower bound of the total weight of a feature.
- `C50_tolerance_fails` — fails as stated: for one feature with lasso weight 1, no group weight and the point 1, the dual norm is 1, and `gauge_function_dual` with its default `tol=1e-10` returns a number below `1 - 9e-8`: the tolerance of `inside_set` is a thousand times larger than the one asked of the gauge.
- `C50_strong_terms_partial` — the search behind `sparse_group_lasso_dual.terms` (one group, `lasso` weights and a group weight `w`): its answer approximates the dual norm of `Σ a_i|z_i| + w‖z‖`, with relative tolerance `tol / (1 - tol/2)` and the factor `1 + insideTol / ρ` that the tolerance added to the group weight costs.

### C51 Cox partial likelihood is what the C loops compute

_cox_objective computed through the ordering/rank buffers equals sum_i delta_i w_i (log sum_{T_j>=T_i} w_j e^{eta_j} - eta_i) for every tie pattern and every valid ordering; it does not depend on how argsort broke ties.

Plan: Buffers as functions on indices, ordering as any sorting permutation; sums.

- `C51_value_partial` — **C51** for every reachable Cox loss (any times, ties, sorting permutation, censoring, nonnegative weights, any evaluation history) in which every risk set has positive weight: the C loops return `coef` times Breslow's negative log partial likelihood at `x - offset`, and a gradient array; no nan. Missing: risk sets of weight zero, where they return nan (`C51_zero_risk_fails`).
- `C51_order_irrelevant` — **C51** the result does not depend on which sorting permutation `argsort` picked among ties, nor on the history: two losses with the same data evaluate alike in every mode (nan included).
- `C51_zero_risk_fails` — **C51** fails when some risk set has weight zero, by the weights of the loss or those of the caller: the loops return nan as value, even if the case itself is censored or has weight zero.
- `C51_set_data_fails` — **C51** fails after assigning new data through the `data` property: the ordering is stale and the value is not the partial likelihood of the new data.
- `C51_argsort_exists` — a sorting permutation always exists, so the constructor is total on nonnegative coefficients and weights

### C52 power_L never overestimates

power_L(T) returns a value that is at most the squared operator norm of T after any number of iterations.

Plan: Rayleigh quotient inequality.

- `C52_at_most_partial` — if `‖T x‖² ≤ L ‖x‖²` for all `x` and the loop does not stop after its first iteration, the value returned is at most `L`, for every starting vector, every tolerance and every `max_its ≥ 2`. Missing: runs that stop after one iteration (see `C52_overestimates_fails`).
- `C52_at_most_start` — in all cases with at least one iteration the value is at most `L max(1, ‖v0‖)`, `v0` the starting vector.
- `C52_returns_number` — unless the starting vector is in the null space a number (never `nan`) is returned, and it is a lower estimate that improves on the Rayleigh-type quotient `‖TᵀT v‖/‖v‖` of the first iterate when more than one iteration is run.
- `C52_overestimates_fails` — does not hold as stated: with the default arguments (`max_its=500, tol=1e-8`) and the 1 x 1 identity matrix the starting vector `1 + 10⁻⁹` gives `1 + 10⁻⁹ > 1`, and with `max_its=1` the starting vector 2 gives 2.

### C53 Reading a selector/posneg result is not disturbed by later calls

Arrays returned by linear_map/adjoint_map/smooth_objective keep their values when the same object is evaluated again.

Plan: Heap model of shared buffers.

- `C53_selector_read_now_partial` — , what holds: after any history `us` of calls on a fresh selector, the array returned by the next call `adjoint_map(u)`, read before any further call, is the right one, and arrays that are not results of this object are not modified.
- `C53_selector_alias` — every array ever returned by a selector shows, after the history `us` followed by `adjoint_map(u)`, the value of the LAST call.
- `C53_selector_fails` — fails for `selector`: the array returned by the first call shows another value after the second call. It also fails for later results when the caller modifies a returned array: the entry outside the selection is never reset.
- `C53_posneg` — , `posneg`: the array returned is the right one when read at once, whatever was in the buffer, and every array returned earlier shows the value of the last call.
- `C53_posneg_fails` — fails for `posneg`.
- `C53_gradient_partial` — , gradients of `cox_loglike` and `stacked_loglike`: with `coef = 1` the returned array is the internal buffer, so it shows the gradient of the last evaluation; with any other `coef` it keeps its value through later calls.

### C54 Assigning an offset takes effect

After composite.offset = v, evaluation uses v (or no offset when v is identically zero), whatever the previous offset was.

Plan: State machine of set_offset; negation witness (the all-zero branch returns before assigning).

- `C54_set_offset_partial` — , what holds: assigning `None` removes the offset, assigning an array that is not identically zero makes evaluation use it, whatever was there before; on construction an identically zero array means no offset.
- `C54_history` — after any sequence of assignments, evaluation uses the last assigned value that was `None` or not identically zero (no offset if there is none).
- `C54_zero_offset_fails` — fails: assigning an identically zero array leaves the old offset in force.

### C55 Group LASSO epigraph cones are projected on

group_lasso_epigraph / its polar / the dual epigraph and its polar return the Euclidean projection of every point onto the corresponding cone.

Plan: Blockwise reduction to the weighted root finder, polar cones by Moreau.

- `C55_epigraph` — `group_lasso_epigraph.cone_prox` is the projection on `{(v,u) : Σ_g w_g‖v[g]‖ ≤ u}` for every center, every group structure and every tie order. Weights at least `1e-20`.
- `C55_epigraph_polar` — `group_lasso_epigraph_polar.cone_prox` projects on `{(v,u) : ‖v[g]‖ ≤ -u w_g for all g}`.
- `C55_dual_epigraph_polar` — `group_lasso_dual_epigraph_polar.cone_prox` projects on `{(v,u) : Σ_g w_g‖v[g]‖ ≤ -u}`.
- `C55_dual_epigraph` — `group_lasso_dual_epigraph.cone_prox` projects on `{(v,u) : ‖v[g]‖ ≤ u w_g for all g}`.

### C56 Mixed LASSO penalty: prox, dual and feasibility

mixed_lasso with l1, unpenalised, nonnegative, nonnegative-l1 and group blocks: lagrange_prox is the proximal map of the stated penalty, the dual bound_prox is the projection on its dual ball, seminorm reports infeasible points.

Plan: Per-kind blockwise optimality; nan / feasibility negation witnesses.

- `C56_lagrange_prox_partial` — `mixed_lasso_lagrange_prox` (`mixed_lasso.proximal`) is the proximal map of the mixed penalty on its domain, for every penalty structure. (`lagrange = 0` with a zero l1 coordinate is excluded, see below.)
- `C56_lagrange_zero_fails` — with `lagrange = 0` a zero l1 coordinate yields nan (`0 * minimum(1, 0/0)`), although the proximal point is the input.
- `C56_dual_bound_prox` — `mixed_lasso_dual_bound_prox` is the projection on the dual ball.
- `C56_seminorm_feasibility_fails` — `seminorm(x, check_feasibility=True)` reports `+inf` at the feasible point 0 of a nonnegative coordinate: the test is `x.min() < tol` instead of `x.min() < -tol`.
- `C56_seminorm` — without the feasibility check the reported value is the penalty, on the domain.

### C57 Block norms of matrices: prox, dual pairs and parameters

For l1_l2, linf_l2, l1_l1, linf_linf (and block_sum, block_max): lagrange_prox is the proximal map and bound_prox the projection for the stated norm of the matrix, the paired classes are dual norms, constraint accepts exactly the ball up to tolerance, and conjugate carries the current parameter.

Plan: Row-wise shrinkage; root finder of C01 on the row norms; zero rows explicit as nan; state machine for parameters.

- `C57_seminorm` — the values of the four norms.
- `C57_constraint` — the four constraints are `0` exactly when the norm is at most `bound` up to the relative tolerance, and infinite otherwise.
- `C57_l1_l2_lagrange_prox_partial` — `l1_l2.lagrange_prox` is the proximal map of `lam Σ_i ‖z_i‖₂` on the nonzero rows. Missing: the zero rows of the argument, see `C57_zero_rows_fails`.
- `C57_l1_l2_bound_prox_partial` — `l1_l2.bound_prox` is the projection on `Σ_i ‖z_i‖₂ ≤ bound` on the nonzero rows. Missing: the zero rows.
- `C57_linf_l2_bound_prox_partial` — `linf_l2.bound_prox` is the projection on `max_i ‖z_i‖₂ ≤ bound`, for a positive bound. Missing: `bound = 0`, see `C57_linf_l2_bound_zero_fails`.
- `C57_linf_l2_lagrange_prox_partial` — `linf_l2.lagrange_prox` is the proximal map of `lam max_i ‖z_i‖₂` on the nonzero rows. Missing: the zero rows.
- `C57_l1_l1_lagrange_prox` — `l1_l1.lagrange_prox` is the proximal map of `lam Σ_ij |z_ij|`.
- `C57_l1_l1_bound_prox` — `l1_l1.bound_prox` is the projection on `Σ_ij |z_ij| ≤ bound`.
- `C57_linf_linf_bound_prox` — `linf_linf.bound_prox` is the projection on `max_ij |z_ij| ≤ bound`.
- `C57_linf_linf_lagrange_prox` — `linf_linf.lagrange_prox` is the proximal map of `lam max_ij |z_ij|`.
- `C57_dual_norms` — the pairs `l1_l2`/`linf_l2` and `l1_l1`/`linf_linf` used for conjugates are pairs of dual norms.
- `C57_conjugate_params` — the conjugate of a freshly constructed block norm has the same parameter in the other role, and so has the conjugate of the conjugate.
- `C57_conjugate_stale_fails` — fails: after `penalty.lagrange = 2` the conjugate of a penalty constructed with `lagrange=1` still has `bound=1`.
- `C57_zero_rows_fails` — fails on arguments with a zero row, whatever the parameters: `l1_l2.lagrange_prox`, `l1_l2.bound_prox` and `linf_l2.lagrange_prox` return nan there.
- `C57_linf_l2_bound_zero_fails` — fails for `linf_l2.bound_prox` with `bound = 0` and a zero row: nan instead of 0.
- `C57_block_sum_bound_prox_fails` — fails for `block_sum.bound_prox`, which always returns 0: for every point of the ball except 0 this is not the projection.
- `C57_block_sum_constraint_fails` — fails for `block_sum.constraint` in bound mode: it raises for every argument, whatever assignments to `lagrange` and `bound` were made after construction.
- `C57_block_max_constraint` — `block_max.constraint` in bound mode compares the largest row norm with the bound.

### C58 Sparse group penalty of matrices and its dual norm

sparse_group_block.lagrange_prox is the proximal map of l1_weight*sum|B_ij| + l2_weight*sum||B_i||, the dual's bound_prox is the projection on the dual ball, the dual seminorm is the dual norm up to the requested tolerance, constraint accepts the projected points, and terms sum to the seminorm.

Plan: Composition of the coordinate and row prox; Moreau for the dual; bisection theorem of C50.

- `C58_seminorm` — the value of the penalty.
- `C58_lagrange_prox` — `sparse_group_block.lagrange_prox` is the proximal map of `lam (l1 Σ_ij|z_ij| + l2 Σ_i‖z_i‖₂)`, for every argument (zero rows included).
- `C58_dual_bound_prox` — `sparse_group_block_dual.bound_prox` is the projection on the ball of radius `bound` of the dual norm, i.e. on `{u : ⟨u,z⟩ ≤ bound (l1 Σ|z_ij| + l2 Σ‖z_i‖) for all z}`.
- `C58_dual_norm_exists` — the dual norm is finite as soon as one of the weights is positive.
- `C58_gauge_partial` — `sparse_group_block_dual.seminorm` with `lagrange=1`: the search ends and its answer is within relative tolerance `tol / (1 - tol/2)` of the dual norm, up to an absolute error `1e-10 max(‖X‖,1) / (l1 + l2)`. Missing: accuracy relative to the dual norm for small arguments, which fails (`C58_small_fails`).
- `C58_dual_constraint` — with the defaults (`tol=1e-6`, 50 steps) and a bound in the range of the search, `sparse_group_block_dual.constraint` accepts the points of the ball — in particular what `bound_prox` returns — and accepts no point whose dual norm exceeds the bound by more than a relative `1.2e-5` and the absolute error of the search.
- `C58_small_fails` — fails for small arguments: whenever `‖X‖ ≤ 1e-10` the computed dual norm is 0, although it is a norm.
- `C58_terms_fails` — fails for `sparse_group_block.terms`: documented as the terms summed in the seminorm, it uses `l1_weight` for both parts, so the terms of the 1×1 matrix `(1)` with weights 1 and 2 sum to 2 while the seminorm is 3.

### C59 Nuclear norm and operator norm: prox, projection, dual pair

nuclear_norm and operator_norm: for every matrix and every singular value decomposition LAPACK may return, seminorm is the norm, lagrange_prox is the proximal point, bound_prox is the projection on the ball, constraint accepts exactly the ball up to tolerance, and the two norms are dual.

Plan: np.linalg.svd as an arbitrary triple meeting its contract; vector theorems C02-C05 transferred to matrices through orthonormality; norms specified without singular values.

- `C59_svd_exists` — Every matrix with at least one row and one column has a decomposition as numpy promises it, so the theorems below speak about every matrix.
- `C59_nuclear_seminorm` — `nuclear_norm.seminorm` is `lagrange` times the nuclear norm (the dual of the operator norm).
- `C59_operator_seminorm` — `operator_norm.seminorm` is `lagrange` times the operator norm.
- `C59_nuclear_constraint` — `nuclear_norm.constraint` is zero exactly for nuclear norm at most `(1 + tol) bound`, and infinite otherwise.
- `C59_operator_constraint` — `operator_norm.constraint` is zero exactly for operator norm at most `(1 + tol) bound`, and infinite otherwise.
- `C59_nuclear_lagrange_prox` — `nuclear_norm.lagrange_prox` returns the proximal point of `lagrange` times the nuclear norm.
- `C59_operator_lagrange_prox` — `operator_norm.lagrange_prox` returns the proximal point of `lagrange` times the operator norm.
- `C59_nuclear_bound_prox` — `nuclear_norm.bound_prox` returns the projection on the ball of the nuclear norm.
- `C59_operator_bound_prox` — `operator_norm.bound_prox` returns the projection on the ball of the operator norm.
- `C59_dual_of_operator` — The nuclear norm of `X` as computed is the dual norm of `X` for the operator norm.
- `C59_dual_of_nuclear` — The operator norm of `X` as computed is the dual norm of `X` for the nuclear norm.

### C60 Epigraph cones of the nuclear and operator norms

cone_prox of nuclear_norm_epigraph, operator_norm_epigraph and their polars is the projection on the cone, the conjugate pairs are polar cones, and constraint accepts exactly the cone up to tolerance.

Plan: C04 applied to the singular values; residual bounds give the matrix variational inequality; Moreau; negation proved for the constraint that drops a singular value.

- `C60_nuclear_epigraph` — `nuclear_norm_epigraph.cone_prox` is the projection on `{(X, t) : ‖X‖_* ≤ t}`.
- `C60_nuclear_epigraph_polar` — `nuclear_norm_epigraph_polar.cone_prox` is the projection on `{(X, t) : ‖X‖_op ≤ -t}`.
- `C60_operator_epigraph` — `operator_norm_epigraph.cone_prox` is the projection on `{(X, t) : ‖X‖_op ≤ t}`.
- `C60_operator_epigraph_polar` — `operator_norm_epigraph_polar.cone_prox` is the projection on `{(X, t) : ‖X‖_* ≤ -t}`.
- `C60_nuclear_polar` — The cone of `nuclear_norm_epigraph_polar` is the polar of the cone of `nuclear_norm_epigraph`.
- `C60_operator_polar` — The cone of `operator_norm_epigraph_polar` is the polar of the cone of `operator_norm_epigraph`.
- `C60_nuclear_polar_constraint` — `nuclear_norm_epigraph_polar.constraint` accepts exactly `‖X‖_op ≤ -(1 + tol) t`.
- `C60_operator_constraint` — `operator_norm_epigraph.constraint` accepts exactly `‖X‖_op ≤ (1 + tol) t`.
- `C60_operator_polar_constraint` — `operator_norm_epigraph_polar.constraint` accepts exactly `‖X‖_* ≤ -(1 + tol) t`.
- `C60_nuclear_constraint_partial` — `nuclear_norm_epigraph.constraint` compares the nuclear norm *minus the operator norm* with `(1 + tol) t`; so it accepts every member of the cone, and more. Missing: it should reject what is outside the cone, which is false (`C60_nuclear_constraint_fails`).
- `C60_nuclear_constraint_fails` — Counterexample: the `1 × 1` matrix `(1)` with `t = 0` is accepted by `nuclear_norm_epigraph.constraint` although its nuclear norm is `1`.

### C61 Subspace constraints: projections, polar pair, conjugates

For a basis with orthonormal rows, projection.cone_prox is the Euclidean projection on the row span, projection_complement.cone_prox on its orthogonal complement; the two sets are polar, each class's conjugate is the other with the same basis and its projection is the residual, and constraint accepts exactly the points of relative distance below tol to the set.

Plan: Row orthonormality gives the orthogonality of the residual, hence the variational inequality; constraints compared with the distance through uniqueness of the projection.

- `C61_projection` — `projection.cone_prox` is the Euclidean projection on the span of the rows.
- `C61_complement` — `projection_complement.cone_prox` is the Euclidean projection on the orthogonal complement.
- `C61_polar` — The two sets are polar to each other (for any basis).
- `C61_conjugate` — The `conjugate` property (no quadratic) gives the other class with the same basis, whose `cone_prox` is the residual (Moreau), and the conjugate of the conjugate is the original.
- `C61_get_conjugate_fails` — The documented method `get_conjugate()` raises KeyError for every instance without quadratic, although the property works.
- `C61_conjugate_quadratic_fails` — A `constraint` with a nonzero quadratic coefficient has no `conjugate`: NameError.
- `C61_projection_constraint` — `projection.constraint` accepts exactly the points whose distance to the span is below `tol * max(‖x‖, 1)`.
- `C61_complement_constraint_partial` — `projection_complement.constraint` compares the size of the projection on the complement — not the distance to it — with the tolerance: it accepts exactly the points of relative distance below `tol` to the *span*. Missing: it should accept exactly the points close to the complement, which is false (`C61_complement_constraint_fails`).
- `C61_complement_constraint_fails` — Counterexample: for the basis `[[1, 0]]` the point `(0, 1)` of the complement is rejected and the point `(1, 0)`, orthogonal to the complement, is accepted.

### C62 gengrad minimises the objective of its problem

gengrad(problem, lipschitz) takes generalized gradient steps whose fixed points are the minimisers of the problem's objective, converges at the rate lipschitz*||x0-u||^2/(2k) when lipschitz bounds the curvature of the smooth part, and returns a visited point at which its stopping test holds or max_its was reached.

Plan: Loop invariant for the returned point; exact inner solves turn a step into a proximal gradient step for 2f+h (the loss is kept by solve), with C34's inequality; negation proved by a lasso witness.

- `C62_returns` — `gengrad` returns one of the points visited, at most `max_its` steps from the start, and either all `max_its` steps were taken or the stopping test it was asked for holds at the returned point.
- `C62_fixed_point_doubled_loss` — a step of `gengrad` leaves `x` where it is iff `x` minimises `2 f + h` over `S` — not `f + h`.
- `C62_rate_doubled_loss` — with `lipschitz` an upper bound for the curvature of `f`, after `k` steps from any start the objective `2 f + h` is within `lipschitz ‖x0 - u‖² / (2 k)` of its value at any feasible `u`.
- `C62_nonsmooth_partial` — for a problem without smooth part (`simple_problem.nonsmooth`): the fixed points are the minimisers of the objective and after `k` steps the objective is within `lipschitz ‖x0 - u‖² / (2 k)` of its value at any feasible `u`. Missing: a nonzero smooth part, for which the claim is false (`C62_wrong_minimiser_fails`).
- `C62_smooth_partial` — for a problem without nonsmooth part (`simple_problem.smooth`): the fixed points are the minimisers of `f` and after `k` steps `f` is within `lipschitz ‖x0 - u‖² / (4 k)` of its value at any `u`. Missing: a nonsmooth part next to the loss.
- `C62_wrong_minimiser_fails` — Counterexample: for `½(x - 2)² + |x|`, whose minimiser is `1` with value `3/2`, `gengrad` started at the minimiser with the right Lipschitz constant returns `3/2`, with objective `13/8`, for every `max_its ≥ 1`, every `0 ≤ tol ≤ 1/100` and both stopping rules.

### C63 nesta and tfocs: smoothing with moving centers converges to a solution

nesta and tfocs, with exactly solved smoothed problems: the center never moves away from any solution, a run with coefficient stopping ends by its test after a number of passes that depends only on problem, start and tolerance, a pass that reproduces its center is at a solution, the objective of a pass exceeds the optimum by at most eps*diameter*movement, and the returned dual (nesta) and primal (tfocs) are feasible.

Plan: Saddle point form of the problem (Spec.Saddle); a smoothed pass is quasi-nonexpansive in the center, relaxed by k/(k+3); harmonic sum diverges, so the test holds; feasibility of the extrapolated point refuted by a witness.

- `C63_nesta_returns` — with a nonempty list of smoothing constants `nesta` returns the primal point of some pass `i`; either it stopped there, not before `min_iters` passes and (with `coef_stop`) with the dual center and the new dual within the relative tolerance, returning the center; or it ran through the whole list, returning the center of the pass that would follow.
- `C63_nesta_default` — the fixed list used when `epsilon` is not given
- `C63_nesta_empty_fails` — an empty list of smoothing constants: `primal_coef` is unbound, the call raises.
- `C63_nesta_fejer` — exact passes with positive smoothing constants bring the dual center of `nesta` no farther from any dual solution `us` than it was, pass after pass; the decrease is at least `1 - (k/(k+3))²` times the squared distance between the center and the dual found.
- `C63_nesta_terminates` — with `coef_stop`, a positive tolerance and a problem that has a primal-dual solution, `nesta` with exact passes stops by its test: there is a number of passes `N` that no run, whatever its positive smoothing constants, needs to exceed.
- `C63_nesta_suboptimality` — how good an exact pass is. With smoothing constant `eps` and center `y` it finds `x` and `u` such that, if the dual feasible set has diameter at most `Rad`, the objective at `x` exceeds that at any feasible `x'` by at most `eps * Rad * ‖u - y‖`.
- `C63_nesta_fixed_point` — a pass that finds its own center stops at a solution: `x` minimises `F(x) + h(D x + a)` over the feasible points.
- `C63_tfocs_returns` — `tfocs` returns the dual of some pass `i` and, as primal, the center of that pass if it stopped by its test, the center of the following pass if it ran through the list.
- `C63_tfocs_fejer` — exact passes of `tfocs` bring its primal center no farther from any solution `xs` of `minimise F(x) + h(D x + a)`.
- `C63_tfocs_terminates` — `tfocs` with exact passes and a positive tolerance stops by its test, for every list of positive smoothing constants that is long enough; the length depends on the problem and the tolerance only.
- `C63_tfocs_fixed_point` — a pass of `tfocs` that finds its own center stops at a solution.
- `C63_nesta_dual_infeasible_fails` — Counterexample: the dual returned by `nesta` need not be feasible. On `½(x - 3)² + |x|`, whose dual variable is bounded by `1`, exact passes with `epsilon = [5, 5]` end with the extrapolated dual `49/48`.
- `C63_tfocs_primal_infeasible_fails` — Counterexample: the primal returned by `tfocs` need not be feasible. For `minimise ½x² - 3x` over `|x| ≤ 1`, given as the constraint `F`, the transform `D = -1` and the conjugate `G(u) = ½(u - 3)²`, exact passes with `epsilon = [5, 5]` end with `49/48`.

### C64 ADMM converges to a solution of loss plus penalty of the transform

admm_problem(loss, atom, transform, rho).solve(niter), with exactly solved inner problems: a state left unchanged by a pass solves minimise loss(x)+atom(Dx+a); from any start the distance to every solution does not increase in the norm ||dual||^2/rho + rho||atom_coefs||^2, the constraint violation tends to zero and the objective to the optimal value.

Plan: State machine of three updates with exact inner solvers; optimality inequalities of the two minimisations give the Lyapunov decrease (Boyd et al.), summability gives convergence; needs D symmetric because update_loss_coefs applies D where D^T is needed: negation proved with a rotation.

- `C64_fixed_point_partial` — a state that a pass leaves unchanged solves the problem: its `loss_coefs` minimise `f(x) + g(D x + a)` over the points with `D x + a` in `T`, and `atom_coefs` are `D x + a`. Missing: nonsymmetric `D`, for which the claim is false (`C64_nonsymmetric_fails`).
- `C64_lyapunov_partial` — from any start, `1/ρ ‖dual - ys‖² + ρ ‖atom - zs‖²` never increases, whatever solution `zs` and multiplier `ys`; from the second pass on it decreases by at least `ρ` times the squared constraint violation plus the squared movement of `atom_coefs`. Missing: nonsymmetric `D`.
- `C64_residual_sum_partial` — the squared constraint violations and squared movements of `atom_coefs`, summed over all passes after the first, are at most `1/ρ` times the initial `1/ρ ‖dual - ys‖² + ρ ‖atom - zs‖²`, for every number of passes. Missing: nonsymmetric `D`.
- `C64_convergence_partial` — the iteration converges. If the problem has a solution with a Lagrange multiplier then, from any start, the constraint violation `D x + a - z` tends to zero, the movement of `atom_coefs` tends to zero, and `f(loss_coefs) + g(atom_coefs)` tends to the optimal value. Missing: nonsymmetric `D`.
- `C64_nonsymmetric_fails` — Counterexample: for a transform that is not symmetric the method does not converge to a solution. For the loss `½‖x - (1,0)‖²`, a zero penalty and `D` the rotation by a right angle, started at zero with `ρ = 1` and exact inner solvers, the first coordinate of `loss_coefs` is at most `1/2` after any number of passes, and the objective stays `1/8` above the optimum, which is at `(1, 0)`.

### C65 Block transforms, tensorized transforms and factored matrices are adjoint pairs

block_columns and block_rows apply the i-th transform to the i-th column or slice and place the result in its slice or column; adjoint_map is the adjoint of linear_map for the matrix inner product and affine_map is linear_map plus its value at zero. tensorize applies a matrix transform to every column, offset included. factored_matrix with factors U, D, VT multiplies by U diag(D) VT, rank one included.

Plan: Block maps reduce to C24/C25 of the components through the slice bijection; factored_matrix by expanding the three products. Transforms with repeated selector positions are excluded as in C24 (negation proved).

- `C65_blocks` — `block_columns` maps a matrix to the stacked vectors `T_i(column i)`, `block_rows` maps a vector to the matrix with columns `T_i(block i)`, for the linear and the affine maps.
- `C65_columns_adjoint_partial` — the adjoint identity of `block_columns`: `⟨L(B), u⟩ = ⟨B, L*(u)⟩` for every matrix `B` and vector `u`.
- `C65_rows_adjoint_partial` — the adjoint identity of `block_rows`.
- `C65_affine_partial` — both block maps are affine: the affine map is the linear map plus the value at zero.
- `C65_repeated_selector_fails` — Counterexample inherited from `selector` (C24): with a transform whose selector repeats a position the adjoint identity fails.
- `C65_tensorize` — `tensorize` of a matrix transform acts on every column as the transform does, offset included, and satisfies the adjoint identity.
- `C65_factored` — `factored_matrix` with factors `U, D, VT` is multiplication by `U diag(D) VT`, whatever the rank (the special branch for rank one included): `X` is that matrix, `linear_map` and `adjoint_map` multiply by it and its transpose, `affine_map` adds the offset, and the adjoint identity holds.

### C66 Low rank nuclear and operator norms: truncation does not change the result

compute_iterative_svd ends without exception and returns leading singular triplets, stopping only when the rest is negligible or the stopping rule accepts; the factored nuclear_norm and operator_norm atoms, which use it, return exactly the proximal point or projection of the untruncated problem, for every state left by earlier calls; factored_matrix(X).X is X.

Plan: Loop of compute_iterative_svd with an exact partial_svd; invariant: leading positions, warm start no wider than the request, rank doubling never exceeds 2 min(n,p). Omitted singular values are shown irrelevant for each stopping rule, so results equal those of C59. Negations: lipschitz ignored, zero matrix, initial rank above min(n,p), wide operator norm.

- `C66_iterative_svd` — `compute_iterative_svd` with a warm start of as many columns as the initial rank, at most `min(n, p)`, and `min_singular` at most `1e-12` always ends without an exception. Unless all singular values are at most `1e-12` it returns the `r ≥ 1` leading singular triplets, all above `1e-12`, for some `r`; and either every singular value left out is at most `1e-12`, or the stopping rule accepted the returned values, or every singular value left out is below `min_singular` times the largest.
- `C66_nuclear_lagrange_prox_partial` — for a matrix with at least `initial_rank` rows and columns, whose largest singular value exceeds `1e-12` and each of whose singular values is at most `lagrange`, or above `1e-12` and above `1e-16` times the largest: with `lipschitz = 1` the low rank `nuclear_norm.lagrange_prox` returns the proximal point, and leaves the atom in a state for which the same holds.
- `C66_nuclear_bound_prox_partial` — under the same conditions, each singular value being zero or above `1e-12` and above `1e-16` times the largest, the low rank `nuclear_norm.bound_prox` returns the projection on the ball of the nuclear norm.
- `C66_operator_lagrange_prox_partial` — the low rank `operator_norm.lagrange_prox` returns the proximal point of the operator norm, for every `lipschitz`.
- `C66_operator_bound_prox_partial` — the low rank `operator_norm.bound_prox` returns the projection on the ball of the operator norm.
- `C66_factored_matrix` — `factored_matrix(X)` stores `X` exactly: for every matrix each of whose singular values is zero or above `1e-12` (the zero matrix included) the constructor succeeds and the attribute `X` is the matrix.
- `C66_small_matrix_fails` — Counterexample: with an initial rank above the number of rows or columns every proximal map raises ValueError, for every matrix and every parameter; in particular with the default `initial_rank = 10` for every matrix with fewer than ten rows or columns.
- `C66_operator_wide_fails` — Counterexample: the low rank `operator_norm` cannot be constructed for a matrix with more columns than rows.
- `C66_zero_matrix_fails` — Counterexample: for the zero matrix the proximal maps raise IndexError; the proximal point is the zero matrix.
- `C66_lipschitz_fails` — Counterexample: `nuclear_norm.lagrange_prox` ignores `lipschitz`: for the matrix `[[3]]`, `lagrange = 1`, `lipschitz = 2` it returns `[[2]]`, and the proximal point is `[[5/2]]`.

### C67 Penalties of an affine function of the coefficients

cls.linear(D, ...), cls.affine(D, alpha, ...) and cls.shift(alpha, ...) of the seminorm classes build penalties whose value at x is h(Dx+alpha) plus the quadratic at Dx (h the penalty or the indicator of the bound), whose dual is a transform and an atom representing that function, and whose smoothed version is its Moreau smoothing with a correct gradient.

Plan: Constructor chain of affine_atom over the transform type of C24; value by unfolding, dual through C13, smoothed through C48 and the chain rule of C26. Negations: affine_atom given an affine_transform subtracts the offset; an operator with its own offset loses it in the value but keeps it in smoothed.

- `C67_affine_lagrange` — **C67** (penalty form) `cls.affine(D, α, lagrange=r, quadratic=q)`, and `cls.linear(D, offset=α, ...)`, build a penalty whose value at every `x` is `r h(D x + α) + q(D x)`: the two sign conventions for offsets cancel. Every class with full domain, every transform whose operator carries no offset, with or without feasibility check.
- `C67_affine_bound` — **C67** (bound form) `cls.affine(D, α, bound=r, quadratic=q)` with feasibility check is `q(D x)` when `h(D x + α) ≤ r` and `+∞` outside, up to the relative tolerance `1e-5` of the bound; without feasibility check it is `q(D x)` everywhere.
- `C67_shift_lagrange` — **C67** `cls.shift(α, lagrange=r, quadratic=q)` has the value `r h(x + α) + q(x)`.
- `C67_dual` — **C67** the pair `(D, g)` returned by `dual` represents the penalty: `g` is an atom in the other mode and, for every `x`, `h(D x + α) + ⟨l, D x⟩ + c = sup_u ⟨u, D x⟩ - g(u)`; where the left side is `+∞` the right side is unbounded.
- `C67_double_dual` — **C67** conjugating the dual atom gives the penalty back: the atom `c'` obtained is in the original mode and denotes `z ↦ r h(z + α) + q(z)` (or the bound form), and the operator returned by `dual` acts as the one given.
- `C67_smoothed_partial` — **C67** `smoothed(q)` of such a penalty, with `coef q > 0`, is a smooth function of `x`: the value is `sup_u ⟨D x, u⟩ - h*(u) - q(u)` with `h*` the conjugate of `z ↦ h(z + α) + ...`, the vector returned is its gradient. The transform has no offset of its own and selects no position twice.
- `C67_constructor_subtracts` — **C67** (negation for the constructor) `affine_atom(atom, affine_transform(D, α))` is documented to evaluate `h(D x + α)`. It evaluates `h(D x - α)`: for every matrix, every `α` and every full domain class in penalty form without offset and quadratic.
- `C67_constructor_offset` — **C67** the same for an atom which has an offset `β` of its own, evaluating `h(z - β)`: the object built evaluates `h(D x - β - α)`.
- `C67_constructor_sign_fails` — **C67** fails for the constructor: with `D = 1`, `α = 1`, `x = 1` the documented value of the absolute value of `D x + α` is 2, the value returned is 0.
- `C67_operator_offset_fails` — **C67** fails for operators with an offset: given `affine_transform(D, β)` as operator, `cls.linear` drops `β` in `nonsmooth_objective` but keeps it in `smoothed`. With `D = 1`, `β = 1`: at `x = 0` the value is `|0|`, while the smoothed version, which should never exceed it, is positive (it is the smoothed absolute value at `1`).

### C68 Solving through the dual returns the primal solution

dual_problem(f_conjugate, transform, atom).solve() returns the minimiser of f(x)+<u,Dx> for the dual point u of its last gradient evaluation; if u solves the dual problem this is the unique solution of f(x)+H(x), the optimal values are negatives of each other, and the squared distance to the solution is bounded by the dual suboptimality; stacked_dual combines any number of penalties correctly.

Plan: Evaluations of the solver are an arbitrary list; the stored primal is the gradient of f* at -D'u. Fenchel-Young, gradient of the conjugate from strong convexity, first order optimality of the dual point. stacked_dual by C37 and suprema of sums. Negation: return_optimum returns the dual objective at the primal point.

- `C68_dual_gradient` — **C68** the smooth part of the dual problem evaluates `f*(-Dᵀ u)` and `-D ∇f*(-Dᵀ u)` in every documented mode, and for strongly convex `f` the latter is the gradient of the former.
- `C68_primal` — **C68** whatever evaluations the solver makes, `solve()` returns the unique minimiser over `x` of `f(x) + ⟨u, D x⟩`, where `u` is the point of its last gradient evaluation.
- `C68_weak_duality` — **C68** weak duality: minus the dual objective at any `u` is a lower bound of the primal objective at any `x`.
- `C68_optimal` — **C68** if the solver's last gradient evaluation is at a minimiser `u` of the dual objective, then `solve()` returns the unique minimiser of `f + H`, and the optimal value of the primal problem is minus that of the dual problem.
- `C68_error_bound` — **C68** accuracy of an unfinished run: if the dual objective at the last gradient evaluation exceeds its minimum by `δ`, the vector returned by `solve()` is within `√(2δ/μ)` of the solution of the primal problem.
- `C68_objective` — **C68** `objective(u, check_feasibility)` is the dual objective, with the values the atom reports under that flag.
- `C68_stacked_dual` — **C68** `stacked_dual(shape, atom_1, ..., atom_N)` for any number of penalties: if each pair `(D_i, g_i) = atom_i.dual` represents `H_i` and the proximal map of `g_i` is correct, then the transform and the atom returned represent `H_1 + ... + H_N` and the proximal map of the atom is correct; convexity is inherited, and for `N ≥ 1` the values reported are those of the represented function if the values of the parts are, and it is enough that this holds where the functions are finite to have it where their sum is.
- `C68_seminorm_dual` — **C68** the penalties `cls.linear(D, ...)`, `cls.affine(D, α, ...)` of the seven seminorm classes, in penalty or bound form, with any linear and constant term, satisfy the hypotheses of the other theorems: `dual` returns a pair which represents them, whose atom is convex and has a correct proximal map.
- `C68_return_optimum_fails` — **C68** fails for `solve(return_optimum=True)`: the value returned with the solution is the dual objective evaluated at the primal point. For `½x² - 3x + |x|`, solved exactly (`u = 1` minimises the dual objective), the solution `2` is returned with the value `1/2`, while the minimum is `-2` (and that of the dual problem `2`).

### C69 A container is the sum of its members

container(loss_1, ..., penalty_1, ...): smooth_objective and objective are the sums over all members, quadratics included; proximal(q) is the minimiser of q plus the penalties plus the quadratics of container and losses, up to the square root of the accuracy of the inner dual solve; solve(quadratic=q) minimises the sum plus q and leaves the container as it was; the constructor accepts any nonempty combination of losses and penalties.

Plan: Members are records of dual pair, proximal map of the double dual and value; sums by induction over the lists. proximal through C68: the inner smooth part is the conjugate of the total quadratic, computed in closed form; error bound for every inexact dual point. Negations: quadratics of container or losses, selector with inner transform, solve(quadratic=...), penalties only.

- `C69_smooth_objective` — **C69** `smooth_objective` returns in every documented mode the sum of the values and of the gradients of the smooth members, the sum of the gradients is the gradient of the sum, and any other mode raises ValueError.
- `C69_objective` — **C69** `objective(x, check_feasibility)` is the sum over all members of the values they report, of the quadratics of the smooth members, and of the quadratic of the container.
- `C69_proximal_partial` — **C69** (partial: containers and smooth members without quadratic terms, see `C69_quadratic_fails`) `proximal` when the dual problem is solved, that is for several penalties, or one penalty composed with an operator. Each penalty `H i` is given by its dual pair. The dual problem built has a smooth part `V` and a penalty `P` whose proximal map the solver receives; if the solver stops at a point whose dual objective `V(-Dᵀ u) + P(u)` exceeds the minimum by `δ`, the vector returned is within `√(2δ/coef)` of the minimiser of `proxq + Σ H i`, and it is that minimiser if the dual problem is solved exactly.
- `C69_proximal_identity` — **C69** `proximal` for a single penalty `H` which is not composed with an operator: all quadratics are taken into account.
- `C69_proximal_selector_partial` — **C69** (partial: the selector applies no further transform, see `C69_selector_transform_fails`) `proximal` for a single penalty `H` of the entries of the vector at distinct positions `idx`: all quadratics are taken into account.
- `C69_seminorm_member` — **C69** the penalties `cls.linear(D, ...)`, `cls.affine(D, α, ...)` of the seven seminorm classes, in penalty or bound form, with any linear and constant term, are members of containers to which the theorems about `proximal` apply: the dual pair represents the penalty, its atom is convex with a correct proximal map, and the atom used when no dual problem is solved has the proximal map of the penalty itself.
- `C69_constructor` — **C69** arguments which are neither smooth nor nonsmooth, or no arguments at all, are rejected with ValueError; with at least one smooth member and no other argument the constructor succeeds and keeps all members in their order, adding the zero penalty when there is no penalty.
- `C69_default_penalty` — **C69** the penalty added when there is none is the zero function: that is its value, its proximal map and the function represented by its dual pair, so the theorems above apply to it.
- `C69_only_penalties_fails` — **C69** fails for containers of penalties only: although the documentation describes the class as combining penalties, the constructor raises IndexError whenever all arguments are nonsmooth.
- `C69_quadratic_fails` — **C69** fails when the container or a smooth member has a quadratic: the dual problem is built from the sum of all quadratics, but the primal point is recovered with the coefficient of `proxq` alone. For `proxq = ½(z - 3)²`, a smooth member with quadratic `½z²` and the penalty `|z|`, with the dual problem solved exactly, `2` is returned and the minimiser is `1`.
- `C69_selector_transform_fails` — **C69** fails for a penalty of a selection followed by a further transform: when the single penalty is composed with `selector(index_obj, shape, T)` the transform `T` is dropped. For the penalty `|2z|` with `T` scaling by `2` and `proxq = ½(z - 3)²`, `2` is returned and the minimiser is `1`.
- `C69_solve` — **C69** `solve()` without argument returns the coefficients the solver arrives at, and the attribute `quadratic` is unchanged, with or without argument.
- `C69_solve_quadratic_fails` — **C69** fails for `solve(quadratic=q)`: the argument has no effect whatsoever. For the objective `½z²`, solved exactly, and `q = ½(z - 2)²`, the point `0` is returned, which minimises the objective without `q` and not the one with it.

### C70 conjugate objects: value, gradient and restored quadratic after every history of calls

conjugate(atom, quadratic, negate).smooth_objective(x) returns in its three modes the value of the conjugate of atom + quadratic at x (at -x with negate) and the point attaining the supremum (its negative with negate), which is the gradient; this holds after every sequence of earlier evaluations, the quadratic passed by the caller has its original fields after each, and the constructor refuses exactly the sums without quadratic coefficient.

Plan: Class `conjugate` as a state machine: inner solver state, the caller's quadratic, negate; induction over the list of calls. Library atoms meet the hypotheses through C48. Negation at crash points: an exception inside leaves the shifted linear term.

- `C70_conjugate` — **C70** for every object in place of the atom whose inner minimisation is exact, after every sequence of evaluations in any modes: `smooth_objective(x)` returns the conjugate of `F + quadratic` at `x` (at `-x` with `negate`) and the point where the supremum is attained (its negative with `negate`), a mode other than the three documented ones raises ValueError, and the quadratic the caller passed has its original fields.
- `C70_gradient` — **C70** the second component is the gradient of the first, with or without `negate`, when `F + quadratic` is strongly convex.
- `C70_constructor` — **C70** the constructor raises ValueError exactly when the quadratic coefficients of the atom and of the quadratic add to zero; otherwise the quadratic used is the one passed, zero if there is none.
- `C70_seminorm` — **C70** the seminorm atoms of the library, in penalty or bound form, with any offset and any quadratic, meet the hypotheses: the constructor succeeds when the coefficients add to a positive number, the inner minimisation is exact, and the function conjugated is strongly convex.
- `C70_exception_fails` — **C70** fails at crash points: when the inner minimisation raises (or is interrupted), the quadratic the caller passed keeps the shifted linear term, so that the object, and everything else using that quadratic, stands for another function from then on.

### C71 smooth_conjugate objects: smooth function, Lipschitz constant, double conjugate; solve and proximal of a loss

smooth_conjugate(atom, q).smooth_objective returns the conjugate of atom + q and its gradient, which is Lipschitz with the stored constant; its conjugate is an atom denoting atom + q again, and conjugating that returns the same function. For a loss, proximal(q) minimises quadratic + q, and solve(quadratic=q) minimises loss + quadratic + q, reports the optimal value and leaves the loss as it was.

Plan: `smooth_conjugate` of a seminorm atom: value and argmax through C48, gradient and Lipschitz constant from strong convexity; get_conjugate and biconjugation; `smooth.solve`/`smooth.proximal`. Negations: own quadratic (always raises), value returned by `smooth.solve`.

- `C71_smooth_conjugate` — **C71** for every seminorm atom `f` (any class, penalty or bound form, any offset and quadratic) and every smoothing quadratic such that the coefficients add to a positive number: `smooth_conjugate(f, q)` is built, `smooth_objective` returns in its three modes the conjugate of `f + q` and the point where the supremum is attained, that point is the gradient, the gradient is Lipschitz with the constant stored in `lipschitz`, and another mode raises ValueError.
- `C71_constructor` — **C71** a `smooth_conjugate` of an atom whose coefficients add to zero is refused.
- `C71_double_conjugate` — **C71** the conjugate of a `smooth_conjugate` object (whose own quadratic is left at zero) is an atom denoting the function conjugated: `f + q`. The atom the object was built from is not changed (a copy receives the sum).
- `C71_involution` — **C71** hence conjugating twice changes nothing: the smooth conjugate of the atom so obtained is the function the first object evaluates.
- `C71_own_quadratic_fails` — **C71** fails when the `smooth_conjugate` object itself has been given a quadratic: then `conjugate` always raises, although the derivation in the source covers both cases.
- `C71_loss_proximal` — **C71** `proximal` of a loss is the proximal map of its quadratic: whenever the coefficients add to a positive number it returns the minimiser of `quadratic + proxq`, a float when it is constant.
- `C71_loss_solve` — **C71** `solve(quadratic)` of a loss with an exact solver returns the minimiser of loss, own quadratic and argument together, and afterwards the object is as before.
- `C71_loss_value_fails` — **C71** fails for the value: with `return_optimum=True`, `solve(quadratic)` of a loss returns the objective without the quadratic argument (`solve` of an atom includes it), so the value is off by exactly `quadratic(coefs)`; and the value reported by `smooth_conjugate(loss)`, whose query is such an argument, is wrong: for the loss 0 with quadratic `z²/2` and an exact solver it is `-x²/2` instead of `x²/2`.

### C72 Probit and complementary log-log likelihoods

probit_loglike and cloglog_loglike: 'func' is the weighted negative binomial log-likelihood for the normal and the complementary log-log inverse link at the linear predictor minus the offset, 'grad' its gradient, 'both' the pair; the loss is convex; hessian is its second derivative; mean_function is the inverse link; copies answer alike and subsamples drop the cases outside the index set.

Plan: Both classes as one model with a link parameter; the normal distribution function is the integral of the density. Derivatives by the fundamental theorem of calculus, log-concavity by Mills' inequality, the rest by separability. Negations: clipping (gradient, convexity), offset, Hessian (it is the expected one).

- `C72_clipped` — **C72** the answers at every linear predictor, also outside `[-B, B]`: the value is the binomial negative log-likelihood with clipped probabilities of success and failure, and the gradient has the density at the unclipped predictor over them.
- `C72_gradient_partial` — **C72** While all linear predictors are at most `B` in absolute value (`B` is 20 for probit, 5 for cloglog), 'func' is the textbook negative log-likelihood, and the 'grad' answer is its gradient; strictly inside, 'grad' is the gradient of the function 'func' returns. Holds for all successes, trials, coefficients and weights. Missing: outside `[-B, B]` it is false (`C72_gradient_fails`), and the offset of the loss is ignored (`C72_offset_fails`).
- `C72_constructor` — **C72** The constructors of both classes accept exactly a nonnegative coefficient, nonnegative weights and: given trials, `0 ≤ sᵢ ≤ mᵢ`; without trials, binary successes, each then one out of one trial.
- `C72_gradient_fails` — **C72** fails below the clipping bound: for one success in one trial, at every linear predictor below `-B` the value is locally constant but the returned gradient is not zero.
- `C72_convex_partial` — **C72** For every loss the constructors accept and nonnegative weights, the textbook negative log-likelihood is convex, so the value returned by 'func' is convex along every segment between points with linear predictors at most `B` in absolute value. Missing: convexity on all of space is false (`C72_convex_fails`).
- `C72_convex_fails` — **C72** convexity fails on all of space: for one success in one trial the value is flat below `-B` and strictly decreasing above.
- `C72_offset_fails` — **C72** fails with an offset: the answers of both classes do not depend on the offset at all, so with offset 1, one success in one trial, the value at 0 is not the negative log-likelihood at `0 - 1`.
- `C72_mean` — **C72** mean_function returns probabilities strictly between 0 and 1, is nondecreasing everywhere, and is the inverse link on `[-B, B]`, for probit everywhere.
- `C72_hessian_partial` — **C72** The vector returned by `hessian` at `x`, all linear predictors strictly inside `(-B, B)`, is the diagonal of the *expected* Hessian: the derivative of the gradient when every number of successes is replaced by its mean `mᵢ π(xᵢ)` at `x`. It is nonnegative for weights, coefficient and trials that are. Missing: it is not the Hessian of the loss itself (`C72_hessian_fails`).
- `C72_hessian_fails` — **C72** `hessian` is not the Hessian of the loss: for cloglog with no success in one trial the loss is `exp x`, whose second derivative at 0 is 1, but `hessian` returns `1 / (e - 1)`.
- `C72_copy_subsample` — **C72** Copying a constructed loss succeeds and the copy answers every evaluation and `hessian` call alike; `subsample(idx)` gives a loss whose answers are those of the original with the weights of the cases outside `idx` set to zero.
- `C72_caller_weights` — **C72** Every evaluation multiplies the caller's weights in place: afterwards the caller's array holds the product of its old content with the weights of the loss, and is unchanged if the loss has none.

### C73 The objective of a log-likelihood loss is half its deviance

The objective of logistic_loglike, probit_loglike, cloglog_loglike and poisson_loglike built without a quadratic is coef times half the deviance: nonnegative, and zero at the saturated fit; with a quadratic, plus that quadratic.

Plan: Nonnegativity of the binomial half deviance from `log x <= x - 1`; the constructor's constant is the saturated log-likelihood. Negations: case weights, poisson.

- `C73_deviance_nonneg` — **C73** the yardstick: half the deviance is nonnegative, and zero exactly at the observed proportion.
- `C73_logistic_partial` — **C73** logistic_loglike without case weights, positive trials, linear predictors at most 100: the objective is the coefficient times the sum of the half deviances of the fitted probabilities, plus the caller's quadratic. Missing: linear predictors above 100 (the code replaces `log(1 + exp x)` by `x`), and case weights, for which it is false (`C73_weights_fails`).
- `C73_links_partial` — **C73** probit_loglike and cloglog_loglike without case weights, positive trials, linear predictors at most `B` in absolute value (20, 5): the same, with the inverse link of the class. Missing: the clipped region, the offset (ignored by the code) and case weights, for which it is false (`C73_weights_fails`).
- `C73_nonneg` — **C73** consequence: built without weights and without a quadratic, the objective of each of the three binomial losses is nonnegative at such points, and zero where every fitted probability equals the observed proportion.
- `C73_weights_fails` — **C73** fails with case weights: the constant of the saturated fit ignores them, so with one success in two trials and case weight 0 the objective is `-2 log 2 < 0` at every point.
- `C73_poisson_fails` — **C73** fails for poisson_loglike: its constant is not the saturated log-likelihood. For a single count 2 the objective at the saturated fit `x = log 2` is `2 - 3 log 2`, negative.

### C74 The group lasso path

group_lasso_path: a candidate that passes check_KKT is optimal up to an explicit multiple of the tolerance, every exact solution passes, the strong rule discards no group that is needed while the gradient moves slowly enough, the subproblem is the full problem restricted to the candidate groups, and strong_rules on such a path appends near-optimal solutions unless it warns.

Plan: The checks group by group, over an arbitrary partition; optimality by the tangent inequality and Cauchy-Schwarz per block, the converse by one-sided derivatives along directions supported in one group; the path by instantiating the loop theorems of C40.

- `C74_suboptimality` — **C74** If `group_lasso_path.check_KKT` at tolerance `tol` reports no failing group for `(grad, b)`, where `grad` is the gradient at `b` of a convex loss, then `b` is optimal for `loss + lam Σ_g w_g ‖b[g]‖` up to `tol` times the sum over the groups of `‖u[g] - b[g]‖` times: the mean weight (unpenalised groups), 1 (active groups), `lam w_g` (inactive groups). Weights may be zero, even all of them.
- `C74_optimal` — **C74** At tolerance 0 the checked point minimises the penalised problem.
- `C74_complete` — **C74** Converse: every minimiser passes the check at every tolerance `≥ 0`, so the check never rejects an exact solution.
- `C74_strong_rule` — **C74** The strong rule: if the gradient of a group moves by at most its weight times the change of the lagrange parameter, every discarded group satisfies the optimality condition of a zero block at the next lagrange parameter.
- `C74_strong_set` — **C74** exactly the groups whose scaled gradient norm exceeds `2 lagrange_new - lagrange_cur`, and the unpenalised ones whose gradient is not zero, are kept (for a threshold `≥ 0`).
- `C74_path_strong_set` — **C74** the group lasso path object screens with this rule.
- `C74_path_check_on` — **C74** the check on a set of groups agrees with the check on all of them: it flags an inactive group exactly if the group is in the set and the full check flags it, and the same for an active penalised group (for unpenalised ones the threshold depends on the mean weight of the set).
- `C74_check_active` — **C74** `strong_rules` with `check_active` on a group lasso path, started at zero: a solution appended without the warning is optimal for the full group elastic net problem at its lagrange value up to the tolerance of the check, whatever the subproblem solver did.
- `C74_exact` — **C74** `strong_rules` with the default `check_active = False` on a group lasso path all of whose groups are penalised, started at zero, with an exact subproblem solver: a solution appended without the warning is optimal up to the tolerance of the check.
- `C74_subproblem` — **C74** The problem handed to the solver for a set of groups is the full problem restricted to the vectors that vanish outside these groups: its objective at `y` is the full objective at `y` extended by zero.

### C75 The sparse group lasso path

sparse_group_lasso_path: every group that check_KKT accepts as inactive has its gradient in the dual ball of the group's penalty up to the tolerances, so an accepted zero vector is near-optimal and an optimal zero vector is accepted; the strong rule discards no needed group while the gradient moves slowly enough; the subproblem is the full problem restricted to the candidate groups; subsampling keeps the penalty; unpenalised groups are recognised.

Plan: Bisection results of C43 turned into support-function inequalities per group; the parts the code violates (ridge scale, seminorm, subsample, unpenalized, active groups) as negations with witnesses.

- `C75_inactive` — **C75** If `check_KKT` returns and reports no failing group, in every group it takes for inactive the (negative) gradient lies in the ball of the dual norm of the group's penalty, of a radius at most `acceptedGauge` (`lam` up to the tolerances), the group weight enlarged by the tolerance of the membership test.
- `C75_zero_partial` — **C75** (partial: only for the zero vector; `C75_active_fails` shows what happens in active groups) If the zero vector passes `check_KKT`, it is optimal, for a convex loss, up to the tolerances: its loss is at most that of any `u` plus the penalty of `u` at the lagrange parameter `acceptedGauge` (`lam` up to the tolerances).
- `C75_complete` — **C75** Converse: if every group has a positive group weight and the tolerances of the gauge search are fine enough (see the example below for the defaults), every minimiser of the penalised problem passes the check.
- `C75_active` — **C75** What an accepted active group with a positive group weight means: its dual gauge is at least `lam`, up to the tolerances, and on its nonzero coordinates the negative gradient is `lam * lasso_i * sign(b_i) + s * b_i / ‖b[g]‖` up to the tolerance, for some `s ≥ 0`. (It should be `s = lam * w_g`; `C75_active_fails` shows that it can be far larger.)
- `C75_zero_complete_partial` — **C75** (partial: only for the zero vector) Conversely, if every group is penalised and the zero vector minimises the penalised problem, it passes the check.
- `C75_strong_set` — **C75** The strong set: for a threshold `≥ 0`, a group is kept exactly when some direction supported in it has inner product with the gradient larger than the threshold times the group's penalty (the group weight enlarged by the tolerance of the membership test).
- `C75_strong_rule` — **C75** The strong rule: if the gradient of a group moves, in the dual norm of the group's penalty, by at most the change of the lagrange parameter, then a discarded group satisfies the optimality condition of a zero block at the next lagrange parameter, up to the tolerance of the membership test.
- `C75_penalty` — **C75** The weights of the path: the terms of its penalty add up to `l1_alpha Σ a_i |x_i| + (1 - l1_alpha) Σ_g w_g ‖x[g]‖`, where a group that is given no weight has the square root of its size.
- `C75_subproblem` — **C75** The problem handed to the solver is the full problem restricted to the candidate groups. Its ridge term has the coefficients `(1 - alpha) enet_i`, without the lagrange parameter (`C75_ridge_fails`).
- `C75_ridge_fails` — **C75** (negation) The ridge term of a penalised group lacks the lagrange parameter that the lasso and group lasso paths put in front of it (`enetSmooth`): one feature, `alpha = 1/2`, `lagrange = 2`, value 1.
- `C75_seminorm_fails` — **C75** (negation) `path.penalty.seminorm` is not the path's penalty: the constructor rescales `lasso_weights` but not the inner weighted l1 norm. One feature, unit weights, `l1_alpha = 1/2`, at 1: `3/2` instead of 1.
- `C75_subsample_fails` — **C75** (negation) `path.subsample` does not keep the penalty: the constructor rescales the already scaled weights. For all data: the subsampled path has the weights `l1_alpha² a` and `(1 - l1_alpha)² w`.
- `C75_unpenalized_fails` — **C75** (negation) `unpenalized` flags the wrong groups: never a group without any penalty, and always a group whose weight is 0 but all of whose features have nonzero lasso weights.
- `C75_unpenalized_check_fails` — **C75** (negation) With a group that is not penalised at all, `check_KKT` raises an exception, whatever its arguments.
- `C75_active_fails` — **C75** (negation) The check accepts points that are far from optimal: in an active group it never asks whether the gradient is too large. One feature, `lasso_weights = 0.95` and group weight `0.05` (unit weights and the default `l1_alpha`), `lagrange = 1`, loss `(u - (10^6 + 1000))²/2`, whose gradient at `b = 10^6` is `-1000`: the check reports no failure, while the objective at `b` exceeds that at `10^6 + 999` by more than `498000`.

### C76 The multi-response sparse group paths

sparse_group_common_path and sparse_group_block_path: every row that check_KKT accepts as inactive has its gradient in the dual ball of the row's penalty up to the tolerances, an accepted zero matrix is near-optimal and an optimal zero matrix is accepted; the strong rule discards no needed row while the gradient moves slowly enough; l1_alpha mixes the two penalties in the path and in its subsamples alike.

Plan: As C75, row by row, with the ranking an arbitrary permutation.

- `C76_inactive` — **C76** If `check_KKT` of a `sparse_group_common_path` (or block path) returns and reports no failing row, then in every row it takes for inactive (norm at most `tol * max(sum of the norms, 1)`) the negative gradient lies in the dual ball of radius `acceptedGauge`, i.e. `lam` up to the tolerances. `argsort` may order ties as it likes.
- `C76_zero_partial` — **C76** (partial: only for the zero matrix; active rows are checked by the code of `C75_active_fails`) If the zero matrix passes `check_KKT` and `grad` is a subgradient of the loss at zero, the loss at zero is at most that at any `u` plus the penalty of `u` at the lagrange parameter `acceptedGauge` (`lam` up to the tolerances).
- `C76_complete` — **C76** Converse: if the weight of the group norm is positive and the tolerances of the gauge search are fine enough, a matrix that satisfies the optimality conditions row by row (the negative gradient of a row is `lam` times a subgradient of the row's penalty) passes the check.
- `C76_active` — **C76** What an accepted active row means: as `C75_active`.
- `C76_strong_rule` — **C76** The strong rule for rows.
- `C76_subsample` — **C76** Without `l1_alpha` the path's penalty has the weights passed in, and subsampling keeps them.
- `C76_l1_alpha_fails` — **C76** (negation) `l1_alpha` has no effect on the penalty of the path (it is documented to mix the two penalties), but it does on that of its subsamples.

### C77 Stacked losses

stacked_loglike: the value is coef times the sum of the stacked losses on consecutive blocks of the argument, weighted by the case weights; the returned gradient is its gradient; it is convex if the losses are; results do not depend on earlier evaluations and the caller's arrays are left alone; subsample drops the cases outside the index set; each stacked_* factory builds the loss it names.

Plan: The slice loop and the three evaluation loops modelled over a dependent family of block sizes; the slices proved to be the blocks of finSigmaFinEquiv; chain rule; the parts the code violates (weights, subsample, caller's array, coef of huber, seven of eight factories) as negations.

- `C77_stacked_partial` — **C77** an accepted stack, after any history of evaluations and whatever weights it was given: the value is `coef` times the sum of the stacked losses on the consecutive blocks of the argument (minus the offset); the block of the returned gradient is `coef` times the gradient of that loss; it is the gradient of the value wherever the losses' gradients are; the value is convex if the losses are. Missing: the case weights, which have no effect (`C77_weights_fails`).
- `C77_weights_ignored` — **C77** the stack is never affected by its own case weights or by those of the caller: any two stacks of the same losses return the same results.
- `C77_weights_fails` — **C77** fails for case weights: giving all cases weight zero, on construction and in the call, leaves the value `9` of two squared residuals `3` (halved) as it is.
- `C77_subsample_fails` — **C77** fails for `subsample`: for any set of cases it returns a loss whose attribute `case_weights` is zero on the dropped cases, and which has the same values and gradients as before.
- `C77_caller` — **C77** what an evaluation does to the caller's array of case weights: it is multiplied by the stack's own weights.
- `C77_caller_fails` — **C77** fails for purity: an evaluation changes the caller's weights.
- `C77_gaussian_partial` — **C77** `stacked_loglike.gaussian` is accepted for every nonempty sequence of responses, nonnegative `coef` and nonnegative weights, and its value is `coef` times half the sum of the squared residuals over all responses.
- `C77_coef_fails` — **C77** fails for the `coef` argument of `stacked_loglike.huber` and `.huber_svm`: it is ignored.
- `C77_factory_partial` — **C77** of the eight `stacked_*` factories, `stacked_gaussian` builds its loss for every nonempty sequence of responses.
- `C77_factory_fails` — **C77** fails for the other seven: each raises on every sequence of responses.

### C78 Warm-started paths

warm_start returns one solution and one deviance ratio per lagrange parameter, in order; each problem is started at the previous solution; with an accurate solver each row is optimal for the problem of its own parameter, whatever the initial solution, and equals the problem strong_rules solves; along a decreasing sequence the loss does not increase; the deviance ratios start at 0, do not decrease and stay in [0, 1].

Plan: The loop as a recursion over the sequence with an arbitrary solver; optimality by induction; monotonicity of the loss by the exchange argument; negative losses and perfect fits as negations of the ratio claim.

- `C78_rows` — **C78** for every nonempty sequence of lagrange parameters `warm_start` returns one row and one devratio per parameter, in order; row `k` is the solver's answer for the `k`-th parameter, started at row `k - 1` (the first at the initial solution).
- `C78_empty` — **C78** an empty sequence raises.
- `C78_optimal_on` — **C78** if the solver is accurate to `eps` at the lagrange parameters of the sequence, every row is within `eps` of the optimum of the problem at its own lagrange parameter, whatever the initial solution and the order of the parameters.
- `C78_optimal` — **C78** if the solver is accurate to `eps`, every row is within `eps` of the optimum of the problem at its own lagrange parameter, whatever the initial solution and the order of the parameters.
- `C78_lasso` — **C78** on a lasso path with an accurate solver every row is within `eps` of the minimum of the elastic net problem of C40 at its lagrange parameter.
- `C78_deviance` — **C78** deviance along the path: if the ridge term is proportional to the lagrange parameter up to a part `R` which does not depend on it (features without weight), the solver is accurate to `eps`, and two rows have parameters `lam' < lam`, both nonnegative, then loss plus `R` at `lam'` exceeds that at `lam` by at most `eps (lam + lam') / (lam - lam')`; with an exact solver it does not exceed it.
- `C78_devratio_partial` — **C78** devratio: for an exact solver, a nonnegative loss, a ridge term proportional to the lagrange parameter and a strictly decreasing sequence of nonnegative parameters whose first solution has positive loss, the devratios are numbers, the first is 0, they do not decrease along the path, and they stay between 0 and 1. Missing: losses that can be negative (`C78_devratio_fails`) and a first solution with loss 0 (`C78_zero_fails`).
- `C78_devratio_fails` — **C78** fails for losses that can be negative: for one poisson count 3 and the parameters 2, 0 every exact solver gives the devratios 0 and `1 - (3 - 3 log 3) > 1`.
- `C78_zero_fails` — **C78** fails for a perfect fit: if every solution has loss 0 every devratio is the nan of `0/0`.

### C79 Quadratic losses: factory methods and conjugates

quadratic_loss(Q, coef, offset, quadratic), fromarray, diagonal, squared_transform, shift, affine and linear give c/2 (r)'Q(r) at the documented residual r (x minus the offset; Xx plus the offset for affine; Xx minus the offset for linear) with its true gradient, and objective adds the quadratic passed; a negative coef and keywords other than Q and Qdiag raise ValueError; conjugate is the Fenchel conjugate of loss plus quadratic with the maximiser as gradient, dual pairs it with the transform; cholesky(Q) is multiplication by the inverse of Q.

Plan: Constructor and factories as functions to an object with smooth_objective and quadratic; values by C28 and the chain rule of C26; squared_transform through the adjoint identity of C24; the conjugate through the quadratic algebra of C14 and the zero-atom conjugate of C69; the lost quadratic of affine and linear and the raising conjugates with a Q as negations.

- `C79_constructor_partial` — **C79** `quadratic_loss(shape, Q, coef=c, offset=α, quadratic=q)` raises ValueError exactly for a negative `c`; otherwise its value is `c/2 (x-α)'Q(x-α)` (`c/2 ‖x-α‖²` without `Q`), its gradient is the gradient of that, and `objective` adds `q`. Missing: a `Q` that is not symmetric (`C28_quadratic_fails`) and transforms that repeat a position.
- `C79_fromarray_partial` — **C79** `quadratic_loss.fromarray(Q, offset=α)` is `½ (x-α)'Q(x-α)` for every symmetric matrix `Q`.
- `C79_diagonal` — **C79** `quadratic_loss.diagonal(D, offset=α)` is `½ ∑ Dᵢ (xᵢ-αᵢ)²`, and convex when no entry of `D` is negative.
- `C79_squared_transform_partial` — **C79** `quadratic_loss.squared_transform(T, offset=α)` is `½ ‖D(x-α)‖²`, `D` the linear part of `T`, with its true gradient, and it is convex, for every transform without a repeated position in a selector.
- `C79_keywords` — **C79** keywords: the only extra keywords the factory methods of `quadratic_loss` let through are `Q` and `Qdiag`; any other name is a ValueError.
- `C79_affine_partial` — **C79** `quadratic_loss.affine(X, b, coef=c, Q=Q)` is `c/2 r'Qr` with `r = Xx + b` (the offset is added), for a matrix or a transform `X`, and its gradient is the gradient of that. It raises ValueError exactly for an unacceptable keyword or a negative `c`. Missing: a `quadratic` argument, which is lost (`C79_quadratic_fails`), and transforms that repeat a position.
- `C79_linear_partial` — **C79** `quadratic_loss.linear(X, coef=c, offset=α, Q=Q)` is `c/2 r'Qr` with `r = Xx - α` (the offset is subtracted), and its gradient is the gradient of that. Missing: as for `affine`.
- `C79_shift_partial` — **C79** `quadratic_loss.shift(α, coef=c, quadratic=q, Q=Q)` is `c/2 (x-α)'Q(x-α)` and keeps `q`.
- `C79_quadratic_fails` — **C79** fails for the argument `quadratic` of `affine` and `linear`: the object built does not depend on it, because the quadratic is given to the inner atom, whose `smooth_objective` ignores it. With `q = ½‖·‖²` the objective at 1 of `linear([[1]], quadratic=q)` is 1/2 where `½x² + q(x)` is 1.
- `C79_conjugate_partial` — **C79** `quadratic_loss(shape, coef=c, offset=α, quadratic=q).conjugate`, with `c ≥ 0` and positive total quadratic coefficient, is the Fenchel conjugate of `c/2 ‖x-α‖² + q(x)`, with the maximiser as gradient. With total coefficient 0 it raises ValueError. Missing: a float other than 0 as center of `q` in dimension at least 2 (`C14_collapsed_fails`), and a `Q` (`C79_conjugate_fails`).
- `C79_conjugate_fails` — **C79** fails for a loss with a `Q`: `conjugate` raises for every diagonal, matrix or transform `Q` (also positive definite ones, for which the conjugate exists), with and without `factor`.
- `C79_dual` — **C79** `dual` of `quadratic_loss.affine(X, b, coef=c)` with `c > 0` is the pair of the transform and the Fenchel conjugate of `c/2 ‖r + b‖²`; with a `Q`, or with `c = 0`, it is `None`.
- `C79_cholesky` — **C79** `cholesky(Q)`, with a symmetric `Q` whose factor solves `Q y = x` for every `x`, is multiplication by the inverse of `Q`: applied after `Q` or before it gives back the argument; `adjoint_map` is the adjoint of `linear_map`.

### C80 Quasi-Newton runs: objective, search direction, recorded values, returned point

quasi_newton.objective is loss plus penalty plus the loss' quadratic plus the quadratic, infinite at an infeasible point. With an exact inner solver the search direction is a descent direction with decrease at least half the step times d'Bd, it vanishes exactly at the minimisers, and the inner solution is near optimal when it is near the current point. The last entry of solver_results is the objective at the last line search point, the entries do not increase when the line search is never worse than a zero step; the returned point is feasible and minimises the second order model at a visited state.

Plan: The loop of solve with inner solver and fmin_powell as parameters, on top of the update and convergence test of C38; the variational inequality of the inner problem gives descent, stationarity and the certificate; induction over the iterations gives the recorded values and the source of the returned point. The ignored loss quadratic and the returned inner solution (worse than the start) are proved as negations.

- `C80_objective` — **C80** `objective(x)` is `f + P + loss.quadratic + quadratic` at a feasible point and `+∞` at any other.
- `C80_inner_partial` — **C80** (partial) the problem handed to the inner solver at the point `x` is, up to a constant, the documented second order model `G·(u-x) + ½ (u-x)'B(u-x) + P(u) + quadratic(u)`. Missing: the quadratic of the loss (`C80_loss_quadratic_fails`).
- `C80_descent_partial` — **C80** (partial) with an exact inner solver, a convex penalty and no quadratic in the loss, the search direction is a descent direction: for all small steps the total objective decreases by at least half the step times `d'Bd`, which is positive unless the inner solution is the current point. Missing: a loss with its own quadratic (`C80_loss_quadratic_fails`).
- `C80_stationary_partial` — **C80** (partial) the inner solution is the current point exactly when the current point minimises the total objective (convex loss and penalty). Missing: a loss with its own quadratic.
- `C80_certificate_partial` — **C80** (partial) certificate: the value at the inner solution `u` found at the point `x` exceeds the value at any feasible `z` by at most `(L + M) ‖u - x‖ ‖z - u‖`, when the gradient is `L`-Lipschitz between `x` and `u` and `‖B w‖ ≤ M ‖w‖`; so a small last step certifies the returned point. Missing: a loss with its own quadratic.
- `C80_results` — **C80** the values recorded in `solver_results` are objective values: after a run the last recorded value is the total objective at the last point of the line search (the objective at the start when nothing was recorded), and at most `niter` values are recorded.
- `C80_monotone` — **C80** if the line search never returns a step worse than the step 0, the recorded values never increase and none exceeds the objective at the start.
- `C80_returned` — **C80** the returned point is feasible and is the exact minimiser of the second order model `G·(u-x) + ½ (u-x)'B(u-x) + P(u) + quadratic(u)` around the state `(B, x)` after fewer iterations, with `B` positive definite, whatever the line search does (strictly monotone gradient, exact inner solver).
- `C80_returned_not_better` — **C80** when no iteration met the convergence test, and the line search is never worse than its starting step 1, the value recorded last is at most the objective at the returned point: the loop ends at a point at least as good as the one returned.
- `C80_loss_quadratic_fails` — **C80** (failure) the quadratic of the loss counts in the objective but not in the inner problem: for `½(x-1)²` with the loss quadratic `½x²` the point 1 is a fixed point of the exact iteration and does not minimise the total objective.
- `C80_return_fails` — **C80** (failure) the returned point is the last inner solution, not the point of the line search: minimising `½x²` from 1 with initial Hessian `1/20` and an exact line search, one iteration reaches the minimiser 0 and records the value 0, and `-9` is returned, whose objective `81/2` exceeds the value `1/2` at the start.

### C81 Mixed lasso: screening rule, optimality check, largest useful lagrange parameter

mixed_lasso.check_KKT reports no failure at a minimiser of loss + lagrange * penalty; a vector it accepts is optimal up to an explicit slack when also the gradient vanishes at unpenalised coordinates and is opposite to the solution on active groups. mixed_lasso.strong_set discards only coordinates that are zero at the next lagrange parameter when the gradient moves with at most the assumed slope, and never an unpenalised one; group_lasso.strong_set likewise for groups. The dual seminorm of the gradient at the null solution is the smallest lagrange parameter at which the null solution is optimal.

Plan: The arrays computed by the three cython functions, coordinate by coordinate, with the division by a zero lagrange parameter. The variational inequality of the penalised problem is split into coordinates and blocks, which gives the KKT conditions of each kind; the check is compared with these. Missing checks (unpenalised coordinates, direction on groups), the misplaced group weight in the rule and the sign of the positive part in the dual seminorm are proved as negations.

- `C81_check_complete` — **C81** The check never rejects an exact solution: at a minimiser of the penalised problem no coordinate is reported as failing, for every positive tolerance.
- `C81_suboptimal_partial` — **C81** What an accepted vector satisfies: if no coordinate is reported as failing, and in addition the gradient vanishes at the unpenalised coordinates and is opposite to the solution on every active group, then the vector minimises the penalised objective up to the stated slack. (Partial: the two additional conditions are not checked by the program, see `C81_unpenalized_fails`, `C81_group_direction_fails`.)
- `C81_unpenalized_fails` — **C81** Unpenalised coordinates are never checked: for a problem with one unpenalised coordinate every vector is accepted, however far its objective is from the minimum.
- `C81_group_direction_fails` — **C81** The direction of the gradient on an active group is never checked: for `f = ½x²` and one group, `x = 1` is accepted at `lagrange = 1` although the gradient there points away from the subgradient; the minimum is at zero.
- `C81_strong_rule_partial` — **C81** The screening rule is safe when the gradient moves with at most the assumed slope and no group weighs more than one: every coordinate it discards is zero in every solution at the new lagrange parameter. (Partial: for groups of larger weight see `C81_strong_group_fails`.)
- `C81_strong_complete` — **C81** The screening rule discards all it can: a coordinate that is not in a group is discarded exactly when every gradient entry within the assumed slope satisfies the strict optimality condition of a zero coefficient at the new lagrange parameter.
- `C81_strong_group_fails` — **C81** With a group of weight two the rule is not safe, even when the gradient moves with the assumed slope: `f = ½(x - y)²` with `y = 1.9`, one group of one coordinate and weight two. At `lagrange = 1` the solution is zero with gradient `-1.9`; going to `lagrange = 0.9` the group is discarded, `1.9 < 2·2·0.9 - 1`, although the solution there is `0.1`.
- `C81_strong_keeps_unpenalized` — **C81** The rule keeps every unpenalised coordinate.
- `C81_group_strong_rule` — **C81** The screening rule of the group lasso scales every group by its own weight: if the gradient of every group moves by at most `slope · weight` times the change of the lagrange parameter, a discarded group has a gradient of norm at most `weight · lagrange`, and a solution of the new problem is zero on it unless its weight is zero.
- `C81_lagrange_max_partial` — **C81** Without positive part coordinates and with positive group weights the value of `conjugate.seminorm` at the gradient of the null solution (the solution with all penalised coordinates zero) is the exact threshold: the null solution solves the penalised problem at a lagrange parameter if and only if that parameter is at least this value. (Partial: for positive part coordinates see `C81_lagrange_max_fails`.)
- `C81_lagrange_max_fails` — **C81** With a positive part coordinate the sign is wrong and the value is not a threshold: for `f = ½(x - 1)²` the gradient of the null solution is `-1`, the value is zero, but at `lagrange = 1/2` the solution is not zero.

### C82 Mixed lasso path: accepted solutions, work per step, cached attributes, reported values

mixed_lasso_path.main appends one solution per lagrange parameter after at most ten subproblems each; a solution appended without the warning passes check_KKT on all coefficients and, with an exact subproblem solver and a convex loss, its objective is at most that of any feasible competitor plus one hundredth of the competitor's penalty term; ever_active contains the support of every accepted solution. lagrange_max is the dual seminorm of the gradient at the null solution when it is read first. Rows of beta are on the original scale, df counts the active coefficients, and elastic_net can be read any number of times (these three fail, as does lagrange_max when null_solution is read first).

Plan: main as a state machine over solution, gradient, failing and active sets, the in-place elastic net and a call counter, with the subproblem solver as a parameter; invariants over the ten passes and the sequence. The exact-solver theorem combines dual feasibility from the check with the variational inequality of the subproblem. The two mutually recursive cached properties are a two-field cache, with induction over reads. The wrong scale of beta, df, elastic net and read order are proved as negations.

- `C82_lagrange_max_first` — **C82** If `lagrange_max` is read before `null_solution` on a fresh path, then after any further reads both properties have their documented values: the null solution, and the dual seminorm of the gradient there.
- `C82_null_first` — **C82** If `null_solution` is read first, `lagrange_max` is the dual seminorm of the gradient at the zero vector, and stays so after any further reads.
- `C82_null_first_fails` — **C82** The value of `lagrange_max` depends on which property is read first: an unpenalised and an l1 coefficient with equal columns and response 3. The null solution fits exactly, so the right value is 0; reading `null_solution` first gives 3.
- `C82_enet_fails` — **C82** Reading `elastic_net` changes it: after `k` reads at lagrange parameter `lam` the coefficients carry the factor `lam ^ k` instead of `lam`, so two calls of `grad` at the same point differ (here `lam = 2`).
- `C82_one_per_lagrange` — **C82** `main` appends one solution per lagrange parameter after the first, in the order of the sequence.
- `C82_bounded_work` — **C82** At most ten subproblems are solved per lagrange parameter, and exactly ten before the warning.
- `C82_accepted_partial` — **C82** Every solution appended without the warning passes the optimality check on all coefficients at its lagrange parameter, with the gradient of the loss at that solution. (Partial: without elastic net, which the program rescales at every read, see `C82_enet_fails`.)
- `C82_ever_active` — **C82** The active set only grows: at the end it contains the coefficients that are never penalised and the support of every solution appended without the warning.
- `C82_failing_kept` — **C82** What a rejected pass adds. If the check on the strong set fails, the next pass solves on the same candidates and every coefficient that failed. If only the check on all coefficients fails, every coefficient that failed it is active from then on: after any number of further passes and to the end of any path.
- `C82_exact_partial` — **C82** With an exact subproblem solver and a convex loss, a solution appended without the warning is optimal up to one hundredth of the penalty of the competitor: no side condition on unpenalised coefficients or group directions is needed, because the subproblem contains them. (Partial: without elastic net; the weights of a group do not depend on the candidate set, as for explicitly given weights.)
- `C82_enet_subproblem_fails` — **C82** The elastic net is part of the optimality check but not of the subproblems: for one l1 coefficient, loss `½(x - 3)²`, elastic net `½x²` and `lagrange = 1`, an exact subproblem solver never produces an accepted solution; the path ends with the warning and appends the solution without elastic net.
- `C82_beta_fails` — **C82** The rows of `beta` after the first are on the scale of the normalised design: a nonzero coefficient of a column whose scaling is not one is wrong. The run above has such an entry.
- `C82_beta_first` — **C82** The first row of `beta` is the null solution on the original scale.
- `C82_df_fails` — **C82** `df` is the number of columns for every solution after the first, whatever the solution.

### C83 Scores, probabilities and labels of the binary, Huber, Cox and multinomial estimators

The deviance score of logistic, probit and complementary log-log regression is minus twice the weighted binomial negative log-likelihood of X.dot(coefs) - offset, mean_deviance is that over the number of observations, and both agree with the loss fit minimises; R2 is 0 for the best constant model and at most 0 for any constant. predict_proba is the model probability and the label is True exactly when it exceeds one half; the multinomial label maximises the fitted probability. Huber and Cox scores are minus the loss and minus twice the negative log partial likelihood. (Parts fail: see the theorems ending in _fails.)

Plan: _saturated_score and _loglike_factory of each family on top of the modelled losses (C28, C51, C72); scores are rewritten to the textbook negative log-likelihood within the clipping bounds, fit against score without bounds. R2 of constants uses the Gibbs inequality of C73, with the normal quantile shown to invert the distribution function by the intermediate value theorem. Negations with concrete witnesses: cloglog mean_deviance, null model and labels, offsets of probit and cloglog, weighted R2, R2 with trials, Huber and Cox R2.

- `C83_deviance_partial` — **C83** The `deviance` score of the logistic, probit and complementary log-log regressions is minus twice the weighted binomial negative log-likelihood of the predictions: the response columns are successes and trials, the weights are case weight times sample weight, and the offset column is subtracted from `X.dot(coefs)`. Missing: linear predictors beyond the bound at which the losses clip (100, 20, 5).
- `C83_mean_deviance_partial` — **C83** `mean_deviance` of logistic and probit regression is the deviance score over the number of observations. Missing: complementary log-log regression, where it is false (`C83_mean_deviance_fails`).
- `C83_mean_deviance_fails` — **C83** fails for complementary log-log regression: `mean_deviance` is not divided by the number of observations, for every admissible response.
- `C83_fit_score_partial` — **C83** On the training data, at any coefficients (no bound on the linear predictors), the deviance score is `-2 / coef` times the loss that `fit` minimises: fit and score read the same columns and weights. For logistic regression this holds with an offset column. Missing: probit and complementary log-log regression with an offset (`C83_fit_offset_fails`).
- `C83_fit_offset_fails` — **C83** fails for probit and complementary log-log regression with an offset: `fit` minimises a loss that does not depend on the offset column, while `score` subtracts it.
- `C83_R2_null_partial` — **C83** `R2` of logistic and probit regression without weights or offset, for a binary response that is not constant: the null model of the formula has the mean response as success probability, its own score is 0, and every constant predictor scores at most 0: the null model is the best constant. The null predictor and the constants are within the bound at which the losses clip. Missing: complementary log-log regression (`C83_cloglog_null_fails`), case weights (`C83_R2_weights_fails`), trials (`C83_R2_trials_fails`).
- `C83_cloglog_null_fails` — **C83** fails for complementary log-log regression: the null predictor is a Gumbel quantile, which does not give the mean response as success probability; for one success and one failure the constant model with probability 1/2 has a positive `R2`.
- `C83_R2_weights_fails` — **C83** fails with case weights: the null model ignores them, so constant predictors can have a positive `R2`. Logistic regression, one success of weight 3 and one failure of weight 1, constant probability 3/4.
- `C83_R2_trials_fails` — **C83** fails for responses with trials: `R2` and `accuracy` raise for every two column response (three observations or more).
- `C83_labels_partial` — **C83** `predict_proba` of the logistic and probit classifiers is a probability, and `predict` is `True` exactly when it exceeds one half. For complementary log-log it is the model probability. Missing: labels of the complementary log-log classifier (`C83_cloglog_label_fails`).
- `C83_cloglog_label_fails` — **C83** fails for the complementary log-log classifier: at linear predictor 0 the predicted probability is `1 - 1/e`, more than one half, but the label is `False`.
- `C83_multinomial_label` — **C83** The label predicted by the multinomial classifier has the largest fitted (softmax) probability, for any number of classes and observations.
- `C83_huber_deviance` — **C83** Huber regression: the `deviance` score is minus the weighted sum of Huber functions of the residuals of the predictions; `mean_deviance` divides it by the number of observations.
- `C83_huber_fit_score` — **C83** Huber regression: at any coefficients the deviance score of `X.dot(beta) - offset` is `-1 / coef` times the loss that `fit` minimises.
- `C83_huber_null_fails` — **C83** fails for `R2` of Huber regression: the null model predicts the mean response, which is not the best constant for the Huber loss. Responses 0, 0, 0, 4 and smoothing parameter 1: the constant 0 has `R2 = 1/8`.
- `C83_cox_deviance` — **C83** Cox regression, weights such that every risk set has positive weight: the `deviance` score is minus twice the negative log partial likelihood of the predictions, and `mean_deviance` divides it by the number of cases.
- `C83_cox_unweighted` — **C83** Cox regression without weights scores like unit weights, for every method.
- `C83_cox_R2_fails` — **C83** fails for `R2` of Cox regression: predictions without any information (all equal) score `-1` instead of 0, because the deviance of the null model is not doubled, for every data set whose null deviance is not 0.

### C84 What the penalised estimators fit

fit of an estimator minimises, from the given start and with the given solver arguments, the loss plus (1 - enet_alpha) * lagrange * penalty plus enet_alpha * lagrange / 2 * ||beta||^2, where lagrange is that of the atom built from the score at zero; it returns whenever the gradient of the loss is Lipschitz; and when (1 - enet_alpha) * lagrange is at least the dual norm of the score at zero the fitted coefficients are exactly zero. (Parts fail: unpenalised coefficients, atoms with a quadratic of their own under the elastic net, and the elastic net at the dual norm itself.)

Plan: fit, _construct_atom and _fit_null_soln of lagrange_mixin on top of simple_problem and FISTA; the atom enters through its seminorm and lagrange_prox. The objective is read off with C36, termination with C33. For the null model (and C33_keeps_minimiser) FISTA started at a fixed point of the proximal step is shown by induction over passes to stay there. l1norm is the concrete instance.

- `C84_fit_objective` — **C84** What `fit` of an estimator without unpenalised coefficients minimises. Let `lam` be the `lagrange` of the atom that `atom_constructor` returns for the score at zero. `fit` runs the solver, from `initial` (zero if not given) and with the arguments `solve_args`, on loss + `(1 - enet_alpha) * lam * penalty + enet_alpha * lam / 2 * ‖β‖²` (+, only when `enet_alpha` is 0, the quadratic of the constructed atom), and the objective of the problem at the fitted coefficients is that function.
- `C84_fit_returns` — **C84** `fit` returns: if the gradient of the loss is Lipschitz then for every start, every (nonnegative) penalty parameter and every setting of the solver with backtracking, `fit` comes back with coefficients.
- `C84_null` — **C84** The null solution: if `(1 - enet_alpha) * lam` is at least the dual norm of the score at zero (that is `-⟨score, β⟩ ≤ (1 - enet_alpha) * lam * penalty β` for all `β`), a `fit` from the default start returns coefficients that are exactly zero - for every loss, convex or not.
- `C84_unpenalized_fails` — **C84 fails for unpenalised coefficients**: with `unpenalized=True`, `fit` raises `ValueError('objective is NaN')` for every loss, every data set, every `enet_alpha` and every penalty - the atom with `lagrange=np.inf` is evaluated at zero, and `np.inf * 0` is nan.
- `C84_enet_quadratic_fails` — **C84 fails for an atom with a quadratic**: with `enet_alpha ≠ 0` the quadratic of the atom returned by `atom_constructor` is replaced by the ridge term, so `fit` gives the same result whatever that quadratic is.
- `C84_lasso_null` — **C84** Lasso and elastic net: with the `l1norm` atom, if every coordinate of the score at zero is at most `(1 - enet_alpha) * lagrange` in absolute value, `fit` returns coefficients that are all exactly zero.
- `C84_enet_null_fails` — **C84 fails for the elastic net at the dual norm of the score**: the lasso at `lagrange = max |score|` gives the null model, the elastic net at the same parameter does not. Loss `(β - 4)² / 2`, score at zero `-4`, `lagrange = 4`: with `enet_alpha = 0` the fit is zero, with `enet_alpha = 1/2` zero is not a minimiser of the objective of `fit`.

### C85 check_subgradient verifies proximal maps

check_subgradient(atom, z) of a seminorm returns two equal numbers at every center, in both modes (the seminorm of the proximal point, or the dual seminorm of the residual); conversely, when the two numbers agree the point returned by proximal is the proximal point, up to the tolerance 1e-5 of the norm test. For a cone it returns (0, 0). (Parts fail: the parameter 0; the converse for positive_part and for cones.)

Plan: check_subgradient on top of the class model of C13 and C48. Equality of the values: first-order optimality along rays and segments from the support-function characterisation (C08), uniformly in the class. Converse: Hoelder's inequality for each pair of classes. Concrete witnesses for the negative parts.

- `C85_values` — **C85** for every seminorm with a registered conjugate, in both modes, every positive parameter and every center (whatever offset and quadratic the atom carries), `check_subgradient` does not raise and returns two equal numbers: in lagrange mode the seminorm of the minimiser of `1/2 ‖u - z‖² + λ h(u)`, in bound mode the dual seminorm of the residual of the projection on `h ≤ δ`.
- `C85_certificate` — **C85** the check rejects wrong maps, penalised form: whatever point `U` a `proximal` method returned for the center `z`, if the check accepts it and the two numbers differ by at most `δ`, then `U` minimises `1/2 ‖u - z‖² + λ h(u)` up to `λ (10⁻⁵ h(u) + δ)`, and it is at most that far (in half squared distance) from the minimiser. For the norms the two domain hypotheses are vacuous.
- `C85_certificate_bound` — **C85** the check rejects wrong maps, constrained form: if the check accepts the point `U` returned for the center `z` and the two numbers differ by at most `ε`, then `U` satisfies the constraint up to the factor `1 + 10⁻⁵` and is, up to `2 δ ε` in squared distance, at least as close to `z` as every feasible point `u`, with `‖u - U‖²` to spare.
- `C85_positive_part_fails` — **C85** fails: for `positive_part` the check is no certificate. The dual seminorm is evaluated without its feasibility check, so at the center `-1` the wrong answer `0` is accepted with two equal values, although the minimiser is `-1`.
- `C85_zero_fails` — **C85** fails: with the parameter 0 the check divides by zero, for every class, mode and center, although the proximal map is correct.
- `C85_cone` — **C85** for a cone (a set closed under multiplication by nonnegative numbers) whose `cone_prox` is the projection, `check_subgradient` returns `(0, 0)` at every center.
- `C85_cone_certificate_fails` — **C85** fails: for cones the two equal values do not verify the projection. A `cone_prox` that always returns 0, or that always returns its argument, passes the check at every center; at the center 1 the first is wrong for the nonnegative orthant, at the center -1 the second is.

### C86 huberized_svm is the smoothed hinge loss

huberized_svm(X, labels, eps) with eps > 0 and two labels is the convex function sum_i h_eps(y_i x_i'beta), h_eps the hinge loss smoothed on an interval of length eps and y_i the labels coded -1/+1 in increasing order; the gradient returned is its gradient. More than two labels, a negative coef or eps = 0 raise ValueError. It is the same function as glm.huber_svm(X, labels, eps). (Parts fail: glm.huber_svm differs for every eps other than 1; coef and offset are ignored; a sample with one label is coded +1 whatever the label.)

Plan: huberized_svm on top of affine atoms and their smoothing (C67). The conjugate of the hinge is computed, the maximiser of the smoothed problem is the clipped ratio, coordinate by coordinate. Witnesses for the negative parts.

- `C86_loss` — **C86** `huberized_svm(X, labels, eps)` with `eps > 0` and two labels, both of which occur, is the sum over the cases of the hinge loss smoothed on an interval of length `eps`, at the margin `yᵢ xᵢ'β`, where `yᵢ` codes the labels as `±1`; what is returned in the mode 'grad' is its gradient at every `β`, and it is convex.
- `C86_rejects` — **C86** more than two labels, a negative `coef` and the smoothing parameter 0 are ValueErrors.
- `C86_agrees_with_glm` — **C86** on 0/1 labels, both occurring, `huberized_svm` with smoothing parameter 1 and `glm.huber_svm` with the same design are the same function with the same gradient.
- `C86_agrees_with_glm_fails` — **C86** fails for other smoothing parameters: the two classes disagree for every `eps ≠ 1`, one case of each label.
- `C86_coef_offset_fails` — **C86** fails for the arguments `coef` and `offset`: the function does not depend on them (nor on `quadratic`, which is added elsewhere), so with `coef = 2` the value is not twice the value for `coef = 1`.
- `C86_single_label_fails` — **C86** fails for a sample with a single label: it is always coded `+1`. With labels all 0 (the lower of the usual labels 0, 1) the loss decreases in the direction of the design: at `β = 1`, `X = 1` it is 0, at `β = -1` it is positive.

### C87 Scores and probabilities of the Huber SVM and multinomial estimators

For the Huber SVM and multinomial estimators the deviance score is minus the (weighted) loss of the predictions - smoothed hinge loss for the SVM, twice the negative log likelihood for the multinomial - and on the training data it is a negative multiple of the loss that fit minimises, with the same case weights and offset. R2 is at most 0 for a constant predictor that does not use the features. predict_proba of the multinomial classifier returns, for every observation, softmax probabilities adding to one. (Parts fail: SVM smoothing parameters other than 1; R2 of the SVM is positive for a constant predictor; R2 of the multinomial raises; the multinomial score ignores case weights; predict_proba raises or is wrong for more than one observation.)

Plan: The score and predict_proba functions on top of the saturated losses (C28) and the glm / mglm losses; numpy broadcasting is modelled by shapes. Witnesses for the negative parts.

- `C87_svm_deviance_partial` — **C87** Huber SVM with smoothing parameter 1: the `deviance` score is minus the weighted sum of smoothed hinge losses of the predictions at the margins `(2 yᵢ - 1) ŷᵢ`; `mean_deviance` divides it by the number of observations. Missing: any other smoothing parameter (`C87_svm_deviance_fails`).
- `C87_svm_fit_score` — **C87** Huber SVM, every smoothing parameter: on the training data, at any coefficients, the `deviance` score is `-1/coef` times the loss that `fit` minimises, with case weights and an offset column (which the score subtracts from the predictions).
- `C87_svm_deviance_fails` — **C87** fails for every other smoothing parameter: one success predicted with margin `1 - 2 eps` scores `-(2 - eps/2)`, the smoothed hinge loss is `3/2 eps`.
- `C87_svm_R2_fails` — **C87** fails for `R2` of the Huber SVM: the null predictor is the mean of the 0/1 response, never negative, so when failures are in the majority a constant predictor has a positive `R2`. Three failures, one success, smoothing parameter 1.
- `C87_multinomial_deviance_partial` — **C87** multinomial regression without weights: where no prediction exceeds 50 in absolute value the `deviance` score is minus twice the multinomial negative log likelihood of the counts, and `mean_deviance` divides it by the number of observations. Missing: weights (`C87_multinomial_weights_fails`) and larger predictions, which the loss clips.
- `C87_multinomial_fit_score_partial` — **C87** multinomial regression without weights: on the training data the `deviance` score is `-2/coef` times the loss `fit` minimises (no prediction beyond 50).
- `C87_multinomial_weights_fails` — **C87** fails with case weights: `fit` minimises the weighted loss, but the score does not depend on the weights, for any data; so for the weights 2 of a single observation the score is not `-2/coef` times the fitted loss.
- `C87_multinomial_R2_fails` — **C87** fails for `R2` of multinomial regression: it raises for every response with at least two observations and two classes, as many observations as classes excepted.
- `C87_multinomial_proba_partial` — **C87** for a single observation with at least two classes, `predict_proba` of the multinomial classifier returns the softmax probabilities, which are positive and add to one. Missing: several observations (`C87_multinomial_proba_fails`).
- `C87_multinomial_proba_fails` — **C87** fails for several observations: `predict_proba` raises unless their number is the number of classes (at least two of each), and then it divides by the sums of the wrong rows, so that rows need not add to one.

### C88 A penalised regression from the constructor to the answer

Build a glm loss (least squares, Poisson, Huber, Huber SVM with smoothing 1) from a design, response, coefficient, offsets and case weights, combine it with a norm-type atom in lagrange or bound form by simple_problem, and call solve. The objective of the problem is the weighted loss of the linear predictors plus quadratics plus penalty; a point is a minimiser exactly when the proximal gradient step leaves it where it is; for the losses of bounded curvature solve returns from every start, feasible or not, with coefficients that obey the constraint and the value of the documented objective at them; without restarts the value misses the minimum by at most 2||x0-u||^2/(t(k+1)^2) after k recorded values; a start that is a solution is returned unchanged; and for the three norms a minimiser exists for every design.

Plan: A definition that only connects the existing models (glm, atom, problem, FISTA). The hypotheses of C33-C36 are derived from the arguments of the calls: convexity, gradient and quadratic upper bound of the loss from those of each case, the prox specification and convexity of the atom from C13, C48, C68. Existence of minimisers by compactness. The rate uses an invariant linking the returned coefficients with the last accepted proposal.

- `C88_objective` — **C88** The objective of `simple_problem(loss, atom)`: at every point where the documented objective is finite - the weighted loss of the linear predictors, plus the quadratic of the glm, plus the penalty or constraint, plus the quadratic of the atom - the number `objective` returns is that objective. (Where it is infinite `objective` may return a number, because it does not check feasibility: C13, C36.)
- `C88_certificate` — **C88** Optimality certificate. For every `L > 0` and every `β` the proximal gradient step of the problem exists, and `β` minimises the documented objective over all coefficients exactly when the step leaves it where it is.
- `C88_returns` — **C88** `solve` answers: with a loss of bounded curvature, from every start - feasible or not - and for every setting of tolerance, iteration limits, restarts and stopping rule with backtracking on, a positive first step and `alpha > 1`, `solve` returns; the returned coefficients have a finite documented objective - in particular they obey the constraint when the atom is one - and the returned value is that objective.
- `C88_rate` — **C88** How good the answer is. With a loss of bounded curvature, no restarts, and at most 99 iterations, the coefficients `solve` returns after `k` recorded objective values miss the smallest value of the documented objective by at most `2 ‖x0 - u‖² / (t (k+1)²)` for every minimiser `u`, where `t = min(start_step, 1/(2 M alpha))` and `M` is any positive bound of `coef * κ * ∑ᵢ wᵢ ‖xᵢ‖²`.
- `C88_keeps_solution` — **C88** A solution is kept: if the start minimises the documented objective and the feasibility check of the atom accepts it, `solve` returns exactly the start, for every setting of the solver with backtracking.
- `C88_minimiser_exists` — **C88** There is an answer to find: with one of the three norms (`l1norm`, `supnorm`, `l2norm`) as a constraint, or as a penalty with a positive multiplier and no quadratic terms, the documented objective of a least squares, Huber or Huber SVM regression has a minimiser, for every design - also when there are more coefficients than cases.

### C89 The multiscale change point statistic, its matrix and its tuning parameter

SMUCE_stat with the default noise level returns, for a signal that is not constant, the largest standardised interval sum minus the length penalty sqrt(2 log(p/size)) over the intervals of the transform, and the first interval attaining it; it does not depend on location, scale or the scaling of the transform. form_matrix has as columns the centred, sqrt-length scaled interval indicators, so its transpose is the transform with scaling sqrt(sizes). choose_tuning_parameter returns the requested quantile of the statistics of the draws. Violated: a given sigma always raises, a constant signal gives nan, the call changes the scaling of the transform for good, and the sigma of choose_tuning_parameter has no effect.

Plan: `Model/Smuce.lean` on top of the C45 transform: the statistic with its exception, nan and empty outcomes and the transform it leaves behind; argmax as a loop; percentile by sorting and linear interpolation; the draws are arbitrary signals. Specification: interval statistic from sums, mean and standard deviation; quantile by counting. Proof from C45_interval_means.

- `C89_value` — **C89** The value: for every transform built by the constructor, every signal that is not constant and the default noise level, `SMUCE_stat` returns the largest interval statistic over the intervals of the transform together with the first interval that attains it - whatever the scaling of the transform, as documented.
- `C89_invariant` — **C89** Location and scale of the data do not matter: `SMUCE_stat` of `a + c Z` (`c ≠ 0`) is that of `Z`.
- `C89_scaling_ignored` — **C89** "M's scaling is ignored, even if not None".
- `C89_sigma_fails` — **C89** The noise level cannot be given: for every transform, signal and `sigma` the call ends in an exception.
- `C89_constant_fails` — **C89** A constant signal gives nan, not a statistic.
- `C89_transform_changed_fails` — **C89** Reading the statistic changes the transform: whatever the arguments, afterwards the transform has the scaling `sqrt(sizes)`, so its `linear_map` multiplies the mean over interval `[i, j)` by `sqrt(j - i)`, no matter which scaling it had before.
- `C89_form_matrix` — **C89** `form_matrix` is the matrix of the transform with scaling `sqrt(sizes)`: the product of its column for interval `[i, j)` with a signal is `sqrt(j-i)` times the mean of the centred signal over the interval, columns are centred and have squared length `1 - (j-i)/p`; `length` is the interval length.
- `C89_tuning` — **C89** `choose_tuning_parameter` returns the requested quantile of the statistics of the simulated signals, for every sequence of nonconstant draws, at least one, and every quantile in `[0, 1]`; in particular it does not depend on the scaling the transform has, although every draw changes it.
- `C89_tuning_sigma_fails` — **C89** The argument `sigma` of `choose_tuning_parameter`, documented as passed on to the statistic, has no effect.

### C90 Any atom of the library in a penalised regression

simple_problem(glm, atom).solve() works for every nonsmooth atom, not only the seven seminorms: with group_lasso, sparse_group_lasso, the weighted l1norm, slope, mixed_lasso, the cones, linear subspaces, the simplex, maximum, or a separable combination of such atoms on disjoint groups, each with any offset and any own quadratic of nonnegative coefficient, the objective reported is loss plus quadratics plus the documented penalty or constraint of x - offset; a vector solves the problem exactly when one proximal gradient step leaves it fixed; with a loss of bounded curvature solve returns from every start, misses the optimal value by at most O(1/k^2) after k iterations, and keeps a start that is already a solution. Violated: mixed_lasso takes its offset off twice when it reports its value, and the weighted l1norm with multiplier 0 and an infinite weight gives nan.

Plan: `Model/AtomRegression.lean`: an atom as the pair `proximal`, `nonsmooth_objective` that `simple_problem` uses; the classes derived from `seminorm` and `cone` as records of their methods, with the shared code of the base classes on top; `separable` of any list of atoms. Specification `IsAtomFor A pen`: the contract of an atom standing for the extended-valued convex function `pen`. Proofs: the problem theorems from the contract alone (as C88), the contract for every class from its proximal map (C10 with C16, C18, C20-C23, C56, C61), closure under `separable` from C37.

- `C90_objective` — **C90** The objective of `simple_problem(loss, atom)` for any atom that stands for `pen`: wherever loss plus quadratic plus `pen` is finite, it is the number `objective` returns.
- `C90_certificate` — **C90** Optimality certificate for any atom: for every `L > 0` and every `β` the proximal gradient step of the problem exists, and `β` minimises the documented objective over all coefficients exactly when the step leaves it where it is.
- `C90_returns` — **C90** `solve` answers for any atom: with a loss of bounded curvature, from every start, and for every setting of the solver with backtracking on, a positive first step and `alpha > 1`, `solve` returns coefficients of finite documented objective together with that objective.
- `C90_rate` — **C90** How good the answer is, for any atom: with a loss of bounded curvature, no restarts and at most 99 iterations, the coefficients `solve` returns after `k` recorded objective values miss the smallest value of the documented objective by at most `2 ‖x0 - u‖² / (t (k+1)²)` for every minimiser `u`, where `t = min(start_step, 1/(2 M alpha))`.
- `C90_keeps_solution` — **C90** A solution is kept, for any atom: if the start minimises the documented objective and the feasibility check of the atom accepts it, `solve` returns exactly the start, for every setting of the solver with backtracking.
- `C90_seminorm_lagrange` — **C90** A seminorm class in Lagrange mode: if `lagrange_prox` with multiplier `lam` is the proximal map of the convex function `h` on `S` and `seminorm` returns `h`, the atom with any offset and any quadratic of nonnegative coefficient stands for `h(x - offset) + quadratic(x)`.
- `C90_seminorm_bound` — **C90** A seminorm class in bound mode: if `bound_prox` at `b` is the projection on the convex set `S`, the atom stands for the indicator of `{x : x - offset ∈ S}` plus its quadratic.
- `C90_cone` — **C90** A cone class: if `cone_prox` is the projection on the convex set `S`, the atom stands for the indicator of `{x : x - offset ∈ S}` plus its quadratic.
- `C90_seminorms` — **C90** The seven seminorms of `seminorms.py` (l1norm, supnorm, l2norm, positive_part, constrained_max, constrained_positive_part, max_positive_part) in Lagrange and in bound mode: the atom stands for the documented penalty or constraint of the shifted argument, plus its quadratic.
- `C90_group_lasso` — **C90** `group_lasso` with a Lagrange multiplier stands for `lam * Σ_g w_g ‖z[g]‖₂` of `z = x - offset`, plus its quadratic.
- `C90_group_lasso_bound` — **C90** `group_lasso` with a bound stands for the constraint `Σ_g w_g ‖z[g]‖₂ ≤ bound` on `z = x - offset`, plus its quadratic, whatever order of ties the sort in the root finder picks. Weights are 0 or at least `1e-20`.
- `C90_sparse_group_lasso` — **C90** `sparse_group_lasso` with a Lagrange multiplier stands for `lam * (Σ_i a_i |z_i| + Σ_g w_g ‖z[g]‖₂)` of `z = x - offset`, plus its quadratic.
- `C90_weighted_l1_partial` — **C90** (partial) The weighted `l1norm` with a Lagrange multiplier stands for `lam * Σ_i w_i |z_i|` of `z = x - offset`, with `z_i = 0` wherever the weight is infinite, plus its quadratic. Missing: a multiplier 0 together with an infinite weight, where the proximal map is nan (C23).
- `C90_weighted_l1_bound` — **C90** The weighted `l1norm` with a bound stands for the constraint `Σ_i w_i |z_i| ≤ bound`, `z_i = 0` wherever the weight is infinite, on `z = x - offset`, plus its quadratic. Finite weights are 0 or at least `1e-20`.
- `C90_slope` — **C90** `slope` with a Lagrange multiplier stands for `lam * max_π Σ_i w_i |z_π(i)|` of `z = x - offset`, plus its quadratic, for decreasing positive weights, any correct isotonic regression routine and any order of ties.
- `C90_nonnegative` — **C90** `nonnegative` stands for the constraint `x ≥ offset`, plus its quadratic.
- `C90_nonpositive` — **C90** `nonpositive` stands for the constraint `x ≤ offset`, plus its quadratic.
- `C90_zero` — **C90** `zero` stands for its quadratic alone.
- `C90_zero_constraint` — **C90** `zero_constraint` stands for the constraint `x = offset`, plus its quadratic.
- `C90_projection` — **C90** `projection` on the span of orthonormal rows stands for the constraint that `x - offset` is in that span, plus its quadratic.
- `C90_projection_complement` — **C90** `projection_complement` stands for the constraint that `x - offset` is orthogonal to the rows, plus its quadratic.
- `C90_simplex` — **C90** `simplex` stands for the constraint that `x - offset` is a probability vector, plus its quadratic.
- `C90_maximum` — **C90** `maximum` stands for the largest coordinate of `x - offset`, plus its quadratic.
- `C90_mixed_lasso_partial` — **C90** (partial) `mixed_lasso` without an offset and with a positive multiplier stands for `lam * (Σ_l1 |z_i| + Σ_positive part z_i + Σ_g w_g ‖z[g]‖₂)` on the vectors whose positive part and nonnegative coordinates are not negative, plus its quadratic. Missing: an offset, which `nonsmooth_objective` applies twice (`C90_mixed_lasso_offset_fails`), and the multiplier 0, where the proximal map may be nan (C56).
- `C90_mixed_lasso_offset_fails` — **C90** Counterexample: `mixed_lasso` with an offset. For one l1 coordinate, multiplier 1 and offset 1 the value reported at `x = 1` is `1`, although the penalty of `x - offset = 0` is `0`.
- `C90_separable` — **C90** `separable` of atoms on disjoint groups: if every atom stands for a function of its group, the separable atom stands for the sum of these functions over the groups (coordinates in no group are free).

### C91 Separable penalties as objects: conjugate, Moreau decomposition, reshaped groups

A separable penalty behaves as one atom standing for the sum of its atoms on their groups: nonsmooth_objective is the sum of the documented values; conjugate is the separable penalty of the conjugate atoms and denotes the Fenchel conjugate of the sum, and conjugating twice gives the function back; proximal returns the unique minimiser and satisfies Moreau's decomposition with the conjugate, x = prox_f(L, x) + prox_f*(1/L, Lx)/L; reshaping the groups changes nothing; a quadratic of its own and smoothing work as for every atom. Violated: coordinates in no group (the conjugate should be infinite off 0 there), reshaped groups outside a problem, an own quadratic, smoothing, initial=, selectors, and the constraint form, which bounds each block instead of the sum.

Plan: `Model/SeparableObj.lean`: a `separable` object with atoms, groups, shapes, own quadratic and `coefs`; its conjugate and smoothing with exceptions as outcomes. Proofs: the conjugate of a sum over groups that select each coordinate once is the sum of the conjugates, for arbitrary functions, by induction on the blocks (suprema of sums of sets); the atoms from C13; the proximal map from C37 and C10; Moreau from the variational inequality of a proximal point and the conjugate pair.

- `C91_conjugate_sum` — **C91** the fact behind the conjugate of a separable penalty, for arbitrary functions: if the groups select every coordinate exactly once, every `f_b` is finite somewhere and `g_b` is the conjugate of `f_b`, then the conjugate of `Σ_b f_b(x[group_b])` is `Σ_b g_b(u[group_b])`.
- `C91_conjugate_partial` — **C91** (partial) on every separable penalty whose groups select each coordinate exactly once and whose atoms are seminorms in either form (any offset array, any linear and constant term), `conjugate` is a separable penalty with the same groups and shapes, every atom in the other form with the same parameter, and it denotes the Fenchel conjugate of the sum. Missing: coordinates in no group (`C91_conjugate_fails`) and an own quadratic (`C91_smoothed_fails`).
- `C91_involution` — **C91** conjugating twice gives back a separable penalty with the same groups, denoting the same function, whatever the groups.
- `C91_proximal` — **C91** on disjoint groups, with or without `shapes`, whatever `proximal(q)` returns is the unique minimiser of `q` plus the documented sum over the blocks.
- `C91_proximal_total` — **C91** `proximal(q)` returns a point for every quadratic with a positive coefficient and an array as linear term, provided no group is given another shape, or the center is not an array.
- `C91_shapes_in_problem` — **C91** inside a problem (`simple_problem.proximal` adds the quadratics of the loss and of the problem to the query first) the proximal map of a separable penalty with reshaped groups always returns the unique minimiser.
- `C91_shapes_fails` — **C91** fails with `shapes` outside a problem: when a group has another shape, `proximal(q)` never returns for a quadratic whose center and linear term are both arrays (the query of FISTA), nor for one whose linear term is a number.
- `C91_moreau_generic` — **C91** Moreau decomposition of any convex function with values in `ℝ ∪ {+∞}` and its conjugate: if `p` minimises `L/2‖z-x‖² + f` then `L(x-p)` is the unique minimiser of `1/(2L)‖w-Lx‖² + f*`.
- `C91_moreau` — **C91** Moreau decomposition: on groups that select each coordinate exactly once, the proximal maps of a separable penalty and of its `conjugate` satisfy `x = prox_f(L, x) + prox_{f*}(1/L, L x) / L`.
- `C91_conjugate_fails` — **C91** fails on penalties that leave a coordinate free: whatever the atoms, if some coordinate is in no group then the object returned by `conjugate` does not denote the conjugate (which is infinite where that coordinate is not 0).
- `C91_smoothed_fails` — **C91** fails for smoothing: `smoothed(q)` of any separable penalty is built without complaint, and every evaluation of it (value, gradient, or both) raises ValueError, because `separable.proximal` does not see the quadratic put on the object.
- `C91_quadratic_fails` — **C91** fails for an own quadratic: unlike every other atom, `nonsmooth_objective` and `proximal` of a separable penalty do not depend on the quadratic assigned to it.
- `C91_value` — **C91** value: `nonsmooth_objective` of a separable penalty is the documented sum over the blocks, `+∞` included. Each block is either in Lagrange form with a class of full domain, or in bound form with the feasibility check on and the point not within the relative tolerance `1e-5` outside the ball.
- `C91_constraint` — **C91** `constraint(x, bound)` of a separable penalty is 0 exactly when EVERY block is within `bound` (up to the relative tolerance) and infinite otherwise.
- `C91_seminorm` — **C91** `seminorm(x, lagrange=l)` of a separable penalty of full-domain classes is `l` times the sum of the blocks' seminorms.
- `C91_constraint_fails` — **C91** fails for the constraint form: `constraint(x, bound)` accepts points whose `seminorm(x, lagrange=1)` exceeds the bound, because every block gets the whole bound.
- `C91_init` — **C91** construction without `initial`: the object keeps the atoms, groups and shapes, has no quadratic of its own, starts at 0 and can be the penalty of a problem; `test_for_overlap=True` changes nothing when no two groups share a coordinate.
- `C91_initial_fails` — **C91** fails for `initial`: a separable penalty built with an initial value cannot be the penalty of a problem, because the constructor drops the value and never sets `coefs` (AttributeError).
- `C91_selectors_fails` — **C91** fails for `selectors`: reading it raises NameError on every separable penalty with at least one group.

### C92 Copies, conjugates and compositions of atoms behave like independent values

A program that makes atoms, copies them, takes conjugates, composes them with affine maps, changes their parameters, offset, quadratic and weights, and solves, gets what it would get if every atom were a value of its own: a call changes the atom it names and no other, copy(atom) is the same penalty, and composing with a transform leaves the atom and the transform alone. Violated: copies of about half of the classes share the quadratic object, copies of the mixed lasso share the weights, the conjugate and the composition share arrays with the atom and the transform, block_sum and block_max cannot be copied, and some copies drop the coefficients.

Plan: `Model/AtomHeap.lean`: arrays and quadratics in a heap, atoms as records of references, one operation per call. `Spec/AtomValues.lean`: the same calls on a list of plain records. Refinement by induction over the program; the invariant assigns every array and quadratic an owner (atom and attribute), with a tolerant mode in which arrays passed to conjugates and compositions may have several. The sharing that breaks it is proved for every state (`_fails`).

- `C92_values_partial` — **C92** (partial) Atoms behave like independent values. Run any program that makes atoms and transforms, copies atoms, takes conjugates, composes with affine maps, sets lagrange, bound, offset, quadratic and group weights, solves, and writes in place into arrays and quadratics. What each atom then holds, and what each transform holds, is what the same program gives on plain records, where every call reads and writes the one record it names. Assumed: a program that takes conjugates or composes does not also write in place into offsets, centres or linear terms, and no program writes in place into the quadratic, or the weights dictionary, of an atom of a class whose copies share it. Missing: these excluded programs, for which the statement is false of the code (the `_fails` theorems).
- `C92_others_untouched` — **C92** After such a program, a call that names one atom leaves every other atom and every transform as it was: attributes set on a copy never reach the original, nor the reverse.
- `C92_copy_same` — **C92** `copy(atom)` is the same atom: after any such program, if the atom's parameters are valid, its derived arrays are those of its weights and its offset is not an array of zeros, the copy is a new atom of the same class with the same lagrange, bound, weights, offset and quadratic. Its coefficients are those of the atom, or zeros in the classes whose copies start afresh.
- `C92_shared_quadratic_fails` — **C92** (fails) In the weighted atoms, slope, the sparse-group classes, the linear, simplex and maximum constraints, `svd_cone` and the mixed lasso a copy shares the quadratic object with the original: whenever the copy succeeds, setting `copy.quadratic.coef` sets the coefficient of the original too.
- `C92_shared_weights_fails` — **C92** (fails) Copies of `mixed_lasso` share the dictionary of weights: writing a weight of the copy changes the original.
- `C92_block_copy_fails` — **C92** (fails) `copy` of `block_sum` and `block_max` always raises.
- `C92_conjugate_alias_fails` — **C92** (fails) The conjugate's offset is the array of the atom's linear term: whenever that array has a nonzero entry and the conjugate exists, writing in place into `conjugate.offset` changes the linear term of the atom.
- `C92_affine_alias_fails` — **C92** (fails) Composing an atom that has no offset keeps the array of the transform: writing in place into the offset of the inner atom changes the transform, and every other atom composed with it.
- `C92_stale_weights_fails` — **C92** (fails) Writing into the dictionary `weights` of a group lasso, instead of calling `set_weight`, leaves the array the methods use: the copy, which recomputes it, is a different penalty.

### C93 The mixed lasso atom is the penalty its labels describe

For mixed_lasso and mixed_lasso_dual objects, in terms of the labels (unpenalised, l1, positive part, nonnegative, group), weights, parameter, offset and quadratic given to the constructor: proximal returns the unique minimiser of the documented function plus the quadratic, whatever the order in which Python enumerates the set of groups; nonsmooth_objective reports the documented value; constraint decides the bound; conjugate denotes the Fenchel conjugate and conjugating twice gives the function back; smooth_conjugate and smoothed evaluate the smoothed function with its gradient and Lipschitz constant; == and copy identify equal penalties. Violated: with an offset the value is computed with the offset subtracted twice, the feasibility checks of both classes are wrong, constraint of the dual ignores some coordinates, == ignores offset and quadratic.

Plan: `Spec/LabelPenalty.lean`: penalty, domain and dual ball from the labels. `Model/MixedObj.lean`: the two classes, with the set of groups enumerated in an arbitrary order. `Lemmas/MixedObj.lean`: the arrays the constructor builds say the same as the labels. Proximal map from C56 and C10; conjugates from the generic duality of C13 (support function, homogeneity, separation proved in `Lemmas/LabelPenalty.lean`); smoothing as in C71.

- `C93_value_doubled` — **C93** what `nonsmooth_objective` of a mixed LASSO object reports: the penalty is evaluated after the offset has been subtracted twice.
- `C93_value_partial` — **C93** `nonsmooth_objective(x, check_feasibility=False)` is the documented function at every point where that is finite, for the dual class and for mixed LASSO objects without offset. Missing: offsets (`C93_offset_value_fails`).
- `C93_offset_value_fails` — **C93** with an offset the reported value is not the documented one: for `mixed_lasso([-2], lagrange=1, offset=[1])` the documented value at `[1]` is `|1 - 1| = 0`, the reported one is `|1 - 2| = 1`.
- `C93_feasibility_fails` — **C93** with `check_feasibility=True` a feasible point can be reported infinite: for `mixed_lasso([-4], lagrange=1)` at `[0]` the documented value is 0.
- `C93_dual_constraint_partial` — **C93** `constraint` of the dual class, without offset, when every coordinate has an l1 or positive part penalty or belongs to a group of positive weight: it returns True exactly on the dual ball. Missing: unpenalised and nonnegative coordinates and groups of weight 0 (`C93_dual_constraint_fails`) and offsets (subtracted twice).
- `C93_dual_constraint_fails` — **C93** `constraint` of the dual class ignores unpenalised coordinates: for `mixed_lasso_dual([-1], bound=1)` it returns True at `[5]`, which is not in the dual ball (`proximal` projects on `{0}`).
- `C93_dual_value_fails` — **C93** `nonsmooth_objective(x, check_feasibility=True)` of the dual class adds the bool returned by `constraint`: for `mixed_lasso_dual([-2], bound=1)` it is 1 at the feasible point `[0]` (documented 0) and 0 at the infeasible point `[5]` (documented infinity).
- `C93_constraint_fails` — **C93** `constraint` of the primal class compares `lagrange` times the penalty with the bound: for `mixed_lasso([-2], lagrange=2)` the point `[1]` with penalty 1 violates the bound 1.
- `C93_conjugate` — **C93** `conjugate` of a mixed LASSO object or of its dual, with any labels, nonnegative weights, nonnegative parameter, array offset and linear term and without quadratic coefficient, is an object of the other class with the same labels, weights and parameter, and denotes the Fenchel conjugate of the documented function.
- `C93_conjugate_smooth` — **C93** `conjugate` of an object whose quadratic has a coefficient is a `smooth_conjugate` of it.
- `C93_involution` — **C93** conjugating twice gives back the documented function.
- `C93_smooth_conjugate_partial` — **C93** `smooth_conjugate(f, q)` of a mixed LASSO object without offset, or of a dual object with any offset, with positive parameter and coefficients adding to a positive number: `smooth_objective` returns in its three modes the conjugate of `f + q` and the point where the supremum is attained, that point is the gradient, and the gradient is Lipschitz with the constant in `lipschitz`. Missing: mixed LASSO objects with an offset (`C93_smooth_value_fails`).
- `C93_smooth_value_fails` — **C93** with an offset the value of a smooth conjugate is wrong: for `f = mixed_lasso([-2], lagrange=1, offset=[1])` with the quadratic `1/2 z²`, `smooth_objective([1], 'func')` is smaller than `⟨x,z⟩ - f(z)` at `z = [1]`.
- `C93_smoothed_partial` — **C93** `f.smoothed(q)` of a mixed LASSO object with any array offset and linear term, or of a dual object whose linear term is absent or zero: it is built, evaluates `sup_u ⟨x,u⟩ - f*(u) - q(u)` for the conjugate `f*` of the documented function, returns its gradient, and the gradient is Lipschitz with constant `1/q.coef`. Missing: dual objects with a linear term, for which the conjugate has an offset.
- `C93_eq_partial` — **C93** two objects that compare equal have the same class, labels, weights and parameter, hence the same documented function when offset and quadratic agree. Missing: `==` does not compare those (`C93_eq_fails`).
- `C93_eq_fails` — **C93** objects that compare equal can denote different functions.
- `C93_copy` — **C93** a copy compares equal to the object, denotes the same function and has the same `proximal`.
- `C93_proximal_partial` — **C93** `proximal` of a mixed LASSO object or of its dual, with a positive parameter, for every labelling, every choice of nonnegative weights, every order in which Python enumerates the groups, every offset and every quadratic: called with a quadratic that has an array center or linear term and a positive total coefficient it returns the unique minimiser of the documented function plus that quadratic. Missing: parameter 0, for which a zero l1 coordinate gives nan (`C56_lagrange_zero_fails`).
- `C93_proximal_raises` — **C93** `proximal` raises ValueError exactly when the coefficients add to 0 (array quadratic, positive parameter and nonnegative total coefficient).
- `C93_enumeration` — **C93** the order in which Python enumerates the set of group labels does not matter: two objects built from the same arguments with different orders have the same `proximal`, `seminorm` and (for the primal class) `nonsmooth_objective`.

### C94 Cross-validation scores are held-out scores of models fitted on the training cases

For a lasso_path built from any of the losses, any design, weights and elastic net parameters: the constructor raises exactly on a negative weight; its null solution is zero on the penalised features and minimises the unpenalised problem, grad_solution is the gradient there, and the null solution is optimal for every large enough lagrange parameter; path.subsample restricts the loss to the cases given; in cross_validate the coefficients of a fold are optimal for the elastic net problem of its training cases (loss rescaled by n/n_train) at each lagrange parameter, do not depend on the held-out responses, and the returned arrays are mean and standard deviation over the folds of the score of the held-out linear predictors. Violated: with strong_rules, the default fitter, the first coefficients of every fold are the null solution of all cases, held-out ones included; a design with an offset is used without its offset except in full_loss; huber losses lose their case weights.

Plan: `Model/LassoObj.lean`: the path object with its loss (from `Model/Losses.lean`), design as a transform, constructor, `subsample`, `solve_subproblem`, both path fitters (the models of C40 and C78), `fit_fold`, `cross_validate` and `linpred`. The training loss of a fold is identified with the full loss under indicator case weights (C32); optimality comes from C40 and C78, existence of minimisers from coercivity, the null solution from C43. No leakage is a two-run (noninterference) theorem.

- `C94_training_loss` — **C94** the training loss of a fold is `coef * n / n_train` times the sum over the training cases only of case weight times documented loss of the case (gaussian, poisson, huber, huber_svm with smoothing 1).
- `C94_subsample_partial` — **C94** `path.subsample(case_idx)` never raises on a path the constructor accepts, keeps the design, the weights and the elastic net parameters, and its loss at any linear predictor is the loss of the full data with `case_weights` one on the subsample and zero elsewhere. Missing: huber and huber_svm losses with case weights, which their copy drops.
- `C94_raises` — **C94** the constructor raises exactly when some weight is negative.
- `C94_null` — **C94** the null solution: with an exact subproblem solver, if the problem on the unpenalised features has a minimiser at all, the `solution` the constructor computes is zero on every penalised feature and minimises the elastic net objective among all such vectors, for every lagrange parameter.
- `C94_null_gradient` — **C94** `grad_solution` is the gradient, at the null solution, of the loss at `X b` plus the ridge term.
- `C94_null_optimal` — **C94** the first point of the default path: if the unpenalised problem has a minimiser and `alpha * lam` is at least `max_j |grad_solution_j| / w_j` over the penalised features, the null solution is optimal for the whole elastic net problem at `lam`: the start of `strong_rules` is right for the data the path was built from.
- `C94_warm_fold_partial` — **C94** cross-validation with `warm_start`, one fold: for every design, loss, weights, initial data, sequence of lagrange parameters and set of training cases that is not empty, if the solver is accurate and the fold's problems have minimisers, the fold does not raise and row `k` is optimal up to `eps` for the elastic net problem of the training cases at the `k`-th lagrange parameter. Missing: designs with an offset (`C94_affine_design_fails`), and huber losses with case weights.
- `C94_fold_minimiser` — **C94** the problems of a fold have minimisers: all features penalised, `alpha` and the lagrange parameter positive, one of the convex losses.
- `C94_strong_fold_partial` — **C94** cross-validation with `strong_rules`, one fold, all features penalised, default initial data, exact subproblem solver, convex loss: the fold does not raise, the first row is zero, one row follows for each later lagrange parameter, and a row appended without the warning is optimal, up to the tolerance 1/100 of the KKT check, for the elastic net problem of the training cases at its own lagrange parameter. Missing: unpenalised features (C40_unpenalized_fails, C94_first_score_fails) and the logistic loss, which is not convex as computed (C29).
- `C94_strong_total` — **C94** a fold fitted with `strong_rules` always returns: for every solver, loss, design, initial data and lagrange sequence, as soon as there is a training case; its first row is the solution of the initial data, whatever the training cases, and one row follows for each later lagrange parameter.
- `C94_empty_training` — **C94** the folds may be fitted without the held-out cases and without raising, yet a training set without cases raises (or gives an infinite coefficient) for every fitter.
- `C94_linpred` — **C94** `path.linpred(coef, X, test)` for coefficients of shape `(l, q, p)` (several responses): entry `(i, j, k)` of the result is the linear predictor of the `i`-th test case under the coefficients of response `j` at the `k`-th lagrange parameter.
- `C94_first_score_fails` — **C94** fails for the first lagrange parameter with `strong_rules`, the default fitter: its first row is the solution of the initial data, and by default that is the null solution of all cases, the held-out ones included. Least squares with an unpenalised intercept and responses 0 and 2, leave-one-out: for every exact solver the score reported for the first lagrange parameter is 1, while the coefficients that are optimal for the training case of a fold have squared prediction error 4 on the held-out case.
- `C94_affine_design_fails` — **C94** fails for a design with an offset: the constructor, the subproblems and the linear predictors of the scores apply only the linear part of the design, `full_loss`, which `warm_start` minimises, applies the offset too. With the design `b ↦ 1 + b` and response 1 every exact solver gives the null solution 1, while the unpenalised fit is 0.
- `C94_scores` — **C94** what `cross_validate` returns, for every path fitter, score function and list of folds: if it does not raise there is, for each fold, the list of coefficient rows its fit on the training cases returned, all of one length `K`; the two returned arrays have length `K`, and entry `k` of them is the mean and the (population) standard deviation, over the folds, of the score of row `k` on the held-out cases of the fold: linear predictors `X[test] β_k` against `y[test]`.
- `C94_default_score` — **C94** with the default score the held-out score is the mean squared prediction error on the held-out cases.
- `C94_cross_validate_partial` — **C94** cross-validation with `warm_start`, all folds: for every design without offset, every loss whose case weights survive `subsample`, and every nonempty list of folds with training cases, if the solver is accurate and the problems of the folds have minimisers, `cross_validate` does not raise; entry `k` of the first array it returns is the average over the folds of the mean squared prediction error, on the held-out cases, of coefficients that are optimal up to `eps` for the elastic net problem of the training cases at the `k`-th lagrange parameter.
- `C94_no_leak` — **C94** no leakage: the coefficients fitted for a fold are a function of the training cases. Take two paths with the same design, weights and elastic net parameters whose losses agree on the training cases (responses, offsets, case weights) and differ arbitrarily elsewhere; from the same initial data the fits of the fold are equal, with `strong_rules` and with `warm_start`, for every solver.

### C95 The folds of a cross-validation may run in any thread schedule

cross_validate runs one call of warm_start per fold in concurrent threads, and all calls without solve_args share one dictionary. For every interleaving of the threads: the rows a fold has computed are solver answers for its own problems, in the order of its own lagrange sequence, each started at its own previous row; no schedule blocks a fold; if the solver is accurate for inner_tol whatever the step, every row of every fold is optimal for the fold's own training problem; if the solver's answer does not depend on tolerance and step, or if the threads do not interleave within an iteration (n_jobs=1), the result is exactly that of warm_start alone; keyword arguments other than tol and start_step reach the solver unchanged. Violated: the start_step of another fold can reach a fold's solver, so results depend on the schedule; concurrent calls with different inner_tol can get each other's tolerance; a tol given in solve_args is overwritten, in the caller's dictionary.

Plan: `Model/Threads.lean`: a small-step model of concurrent `warm_start` calls over the shared `solve_args` dictionary; one loop iteration is three actions (write `tol`, write `start_step`, read the dictionary and solve), a schedule is a list of thread numbers. Invariants by induction over the schedule: the rows are a chain of solver answers (safety), a work measure decreases (progress), the dictionary holds the tolerance of some call whenever a thread reads it. Combined with C94 for the folds of `cross_validate`. The races are proved as failing witnesses.

- `C95_rows` — **C95** every schedule, at every moment: the rows that a thread has computed so far are those of an initial part of its own sequence of lagrange parameters, in order; each is the solver's answer for the thread's own problem, started at the thread's own previous row (the first at its initial solution). Only the tolerance and the step may come from another thread: the tolerance is the `inner_tol` of one of the calls, and all other keyword arguments are the caller's.
- `C95_progress` — **C95** no schedule blocks a thread: a thread that gets three turns per lagrange parameter has finished, and a thread that has not got them has not.
- `C95_optimal` — **C95** accuracy under every schedule: if, for the tolerance of any of the concurrent calls and for any step, the solver is within `eps` of the optimum on the problems of thread `i`, then so is every row of thread `i` once it has finished, at its own lagrange parameter.
- `C95_schedule_free` — **C95** schedule independence: if the solver's answers do not depend on its tolerance and step, a finished thread has, under every schedule, exactly the rows that `warm_start` returns when it runs alone.
- `C95_sequential` — **C95** schedules without interference: if every iteration of a loop is one uninterrupted turn (the folds run one after the other, as with `n_jobs=1`, or take turns between iterations), a finished thread has exactly the rows that `warm_start` returns when it runs alone, for every solver.
- `C95_args_kept` — **C95** the caller's dictionary: whatever the schedule, entries other than `tol` and `start_step` are left alone.
- `C95_cross_validate_partial` — **C95** cross-validation in threads: for every design, loss, weights, initial data, sequence of lagrange parameters and folds whose training sets are not empty, every choice of initial steps, every initial content of the shared dictionary and every schedule in which each fold gets its turns, each fold finishes with one row per lagrange parameter, and row `k` is optimal up to `eps` for the elastic net problem of the fold's own training cases at the `k`-th lagrange parameter. Missing: designs with an offset (`C94_affine_design_fails`), huber losses with case weights, and equality with the sequential result (`C95_step_race_fails`).
- `C95_folds` — **C95** the folds in threads are the folds of the sequential cross-validation: for every path, folds, sequence, initial data and dictionary, if the solver's answers do not depend on its tolerance and step, or if no thread is interrupted within an iteration, each finished fold has exactly the coefficients that `fit_fold` returns when it runs alone.
- `C95_step_race_fails` — **C95** the result of a threaded run is not that of the sequential run: there are a solver that always meets the requested tolerance, two calls with the same tolerance, and a schedule in which both finish, such that the first call's row is not the one it computes when it runs alone: the second thread's `start_step` reached the first thread's solver.
- `C95_tol_race_fails` — **C95** the tolerance of a call is not its own: two concurrent calls with different `inner_tol`, a solver that always meets the tolerance it is given, and a schedule in which both finish, such that the row of the call with `inner_tol` 0 is not optimal.
- `C95_user_args_fails` — **C95** a tolerance given in `solve_args` is ignored, and the dictionary that the caller passed is changed: after any call with a nonempty sequence that finishes alone its `tol` is `inner_tol`.

### C96 FISTA stops by its tolerance within a bounded number of passes

On a convex problem with a correct proximal map and backtracking, FISTA.fit never counts a bad step, so the warning 'prox is taking bad steps' never ends a run; a run shorter than max_its ended because the last proposal changed the objective by less than tol * max(|objective|, 1); and with monotonicity_restart, the objective rule and tol > 1e-10 (the defaults), a run makes at most 2 (E - B) / tol + 1 passes after the first min_its, where E is the objective then and B any lower bound, whatever the conditioning, the steps and max_its. In closed form from a feasible start, and for every penalised regression of C88. Violated: the rule is no certificate for any tolerance; there is one convex problem and one start for which fit with every tol > 0 and all other arguments at their defaults returns the same point, worse than the minimum by any prescribed gap.

Plan: Invariants over the passes of `fit` (`Model/Fista.lean`): on a convex problem a step taken from the kept coefficients is a plain proximal gradient step and is never rejected; an accepted pass that does not meet the rule lowers the objective by at least `tol`; a rejected pass is followed by a plain one. Counting gives the bound. `C96_tol_limit_fails` simulates six passes on `max(x,0)^2/4 - K x` with the irrational Nesterov weights kept symbolic.

- `C96_regression` — **C96** for users of `simple_problem(glm, atom).solve()`: for every convex loss of C88 (Poisson included), penalty or constraint, weights, offsets and quadratics whose documented objective has a minimiser `u`, started at a point where the objective is finite, with the default rules and a tolerance above `1e-10`, `solve` records at most `min_its + 1 + 2 (1 + 1e-10)^min_its (F(x0) - F(u) + |F(u)| + 1) / tol` objective values, whatever `max_its`.
- `C96_no_bad_steps` — **C96** the solver never gives up on a convex problem: with backtracking and any stopping rule, no run counts a bad step, so it does not end with the warning "prox is taking bad steps".
- `C96_stop_reason` — **C96** why a run ends: on a convex problem, with the objective stopping rule, a run whose history is shorter than `max_its` ended because the last proposal changed the objective by less than `tol * max(|objective|, 1)`; the returned coefficients are the ones it was compared with.
- `C96_pass_bound` — **C96** number of passes: on a convex problem bounded below by `B`, with backtracking, monotonicity restarts and the objective stopping rule with a tolerance above `1e-10` (the defaults), once `min_its` passes are made every further pass either lowers the objective by `tol` or is followed by one that does, so a run makes at most `2 (E - B) / tol + 1` further passes, where `E` is the objective after `min_its` passes. This holds whatever the problem's conditioning, the start, the step sizes and `max_its`.
- `C96_pass_bound_start` — **C96** the same bound in terms of the start: from a feasible start `x0` a run makes at most `min_its + 1 + 2 (1 + 1e-10)^min_its (F(x0) - B + |B| + 1) / tol` passes.
- `C96_ends_by_tolerance` — **C96** `fit` ends by its tolerance: for a convex problem bounded below whose gradient is `M`-Lipschitz and whose proximal map does not raise, with the default rules, a tolerance above `1e-10`, a feasible start, and `max_its` larger than the bound of `C96_pass_bound_start`, `fit` returns before `max_its` and its last proposal changed the objective by less than the tolerance.
- `C96_tol_limit_fails` — **C96** fails: no tolerance makes the stopping rule safe. For every gap there is one convex problem (`f x = max(x, 0)²/4 - K x` in one dimension, gradient `1/2`-Lipschitz, exact proximal map), one start and one point `x5`, such that `fit` called with any `tol > 0` and every other argument at its default stops after five recorded passes and returns `x5`, which is worse than the minimum by more than the gap. The sixth proposal overshoots the minimiser and has exactly the objective of `x5`; the rule reads this as convergence, so asking for a smaller tolerance does not change the answer.

### C97 Equal penalties are the same penalty

A penalty equals itself and its copy. == is symmetric and transitive. If A == B then A and B have the same value and the same proximal map at every argument; penalties with the same parameters written differently are equal. For quadratics: q == q is True, == is symmetric, and noneify changes no value. Violated: slope ignores its weights, sparse_group_lasso its lasso_weights, group_lasso its bound, all classes the offset and the quadratic, the seminorms the shape; == of linear constraints and of quadratics is a one-sided tolerance and not symmetric; weights of length 1 are broadcast so == of weighted norms is not transitive and may raise; mixed_lasso with default weights differs from the same weights written out; q == q raises for a quadratic without center or linear term; noneify raises for every quadratic with a center.

Plan: `Model/Equality.lean`: a penalty of any shape with its class parameters, constructor, `__copy__` and the `__eq__` its class inherits; its behaviour is the atom of `Model/AtomRegression.lean`. Case analysis on the classes; for constructed objects the comparison of modes is equality. Every violation has a witness, most of them for every dimension and all weights.

- `C97_refl` — **C97**: every object equals itself: `A == A` is `True` and does not raise, for every class of penalties and every constructed object.
- `C97_copy` — **C97**: `copy.copy(A)` succeeds for every constructed penalty, `A == copy.copy(A)` and `copy.copy(A) == A`, and the copy has the same value and proximal map.
- `C97_symm_partial` — **C97** (missing: the linear constraints, see `C97_symm_fails`): `A == B` and `B == A` have the same outcome, for any two constructed penalties of any shapes and classes.
- `C97_trans_partial` — **C97** (missing: the linear constraints; weighted norms of different lengths, see `C97_trans_fails`): if `A == B` and `B == C` then `A == C`.
- `C97_sound_partial` — **C97** (missing: the classes of `C97_slope_fails`, `C97_sparse_group_fails`, `C97_group_bound_fails` and `C97_symm_fails`; equal shape, offset and quadratic are hypotheses, see `C97_offset_fails`, `C97_quadratic_fails`, `C97_shape_fails`): equal penalties have the same value and the same proximal map at every argument.
- `C97_slope_fails` — **C97** (fails): two `slope` penalties with the same multiplier compare equal whatever their weights, although the penalty at the vector of ones is the multiplier times the sum of the weights.
- `C97_sparse_group_fails` — **C97** (fails): two `sparse_group_lasso` penalties compare equal whatever their `lasso_weights`; the two penalties differ at the vector of ones.
- `C97_offset_fails` — **C97** (fails): an `l1norm` with an offset and one without compare equal, in every dimension.
- `C97_quadratic_fails` — **C97** (fails): an `l1norm` with a quadratic and one without compare equal, in every dimension.
- `C97_shape_fails` — **C97** (fails): penalties on spaces of different dimensions compare equal: `l1norm(n, lagrange=l) == l1norm(m, lagrange=l)` for all `n`, `m`, and a weighted norm with one weight equals one with several.
- `C97_trans_fails` — **C97** (fails): `==` of weighted norms is not transitive: weights `[1, 1] == [1] == [1, 1, 1]`, and the comparison of the first with the last raises.
- `C97_group_bound_fails` — **C97** (fails): two group LASSO constraints compare equal whatever their bounds (only `lagrange`, `None` for both, is compared). For every grouping with positive weights there are two bounds and a point feasible for one constraint only.
- `C97_complete_fails` — **C97** (fails): equal functions may be unequal objects: a `mixed_lasso` with the default weights and one with the same weights written out have the same value and proximal map, and compare unequal.
- `C97_symm_fails` — **C97** (fails): `==` is not symmetric, and equal objects can be different constraints: there are unit vectors `u`, `v` of the plane such that, for the projections onto the lines they span, `A == B` is `True`, `B == A` is `False`, and the proximal maps of `A` and `B` differ.
- `C97_linear_close` — **C97**: the tolerance bounds the damage: if `A == B` for two linear constraints of the same class, shape and number of basis vectors, every entry of the two bases agrees up to `1e-8 + 1e-5 * |entry of A|`.
- `C97_quadratic_self` — **C97**: a quadratic equals itself exactly when it has a center and a linear term; otherwise even `q == q` raises.
- `C97_quadratic_close` — **C97**: `q == r` is `True` only if all four parts agree up to the tolerance of `allclose`.
- `C97_quadratic_symm_fails` — **C97** (fails): `==` of quadratics is not symmetric.
- `C97_noneify` — **C97**: `noneify` raises for every quadratic with a center; without one it leaves the function unchanged.

### C98 A GLM loss behaves as a value of its own

What a glm object shows (value, gradient, Hessian, linear predictor, data) is determined by its own attributes as last assigned: assigning to one object, evaluating it, or failing to assign to it shows on no other object, and an assignment that raises changes nothing. A copy or subsample is equal to its original and from then on independent of it, of the arrays both were built from, and of everything made later. Violated: g.data = X, y keeps the old design in value and gradient; two glm objects on one saturated loss overwrite each other's response; a copy and the Hessian forget coef; a refused response has been stored when ValueError is raised; the caller's arrays are kept by reference.

Plan: `Model/GlmHeap.lean`: arrays and saturated losses in stores, `glm` objects holding references, 26 kinds of statements. Two proofs: a simulation between the store and a world of values (`Spec/GlmValues.lean`, using the value-level `Glm` of C28-C32) for the programs in which the code keeps to values; and a frame theorem, for all programs, from an invariant saying which references statements can reach (one induction over programs, instantiated three times). Witness programs for each violation.

- `C98_refines_partial` — **C98** As long as losses are built by `glm.gaussian` and the like, no saturated loss is shared, no array is edited in place, `data` is assigned with the design it has and a response the loss accepts, and objects with a `coef` other than 1 are not copied or asked for a Hessian, a program sees exactly what it would see if every `glm` were a value of its own: an evaluation depends on the last assigned attributes of the object it names and on nothing else, and no statement shows on another object. Missing (and false, see the `_fails` theorems): the statements excluded.
- `C98_copy_independent` — **C98** A copy or subsample is independent of everything else. Take any program, and let a copy or a subsample succeed after it; whatever the caller does next without naming the new object - assign to and evaluate the original, edit in place the arrays it was built from, share losses and weights among other objects, make further objects - every value, gradient, Hessian, linear predictor and data the new object gives is what it would have given at once.
- `C98_copy_leaves_original` — **C98** A copy or subsample leaves what there was alone, and so does everything done with it: after any statements that name only the new object, or objects, arrays and losses made later, every object there was before answers as it did before the copy was made, and the caller's arrays are what they were.
- `C98_data_fails` — **C98** Assigning `data` does not work: after `g.data = X2, y` the value still uses the design the object was built with, while the linear predictor, `data`, the Hessian and a copy use the new one. Here `X = 1`, `X2 = 2`, `y = 0`, `beta = 1`: the value is `1/2` instead of `2`, a copy gives `2`.
- `C98_shared_loss_fails` — **C98** Two `glm` objects built on one saturated loss are not separate: building the second one with its own response replaces the response of the first, whose value at the same point jumps from `1/2` to `8`.
- `C98_copy_coef_fails` — **C98** A copy forgets `coef`: a loss with `coef = 3` and value `3/2` has a copy with value `1/2`.
- `C98_hessian_coef_fails` — **C98** `hessian` forgets `coef`: with `coef = 3` the gradient at `b` is `3 b`, the Hessian `1`.
- `C98_failed_assignment_fails` — **C98** An assignment that raises ValueError has happened nevertheless: after the logistic loss refused the response `2` with one trial, `data` is the refused response with the new design.
- `C98_edit_fails` — **C98** An object keeps the caller's arrays: editing the weight array in place changes its value (from `1/2` to `7/2`), and multiplying its `case_weights` in place changes the caller's array.

### C99 Solutions stay what they were, and problems do not disturb each other

The array returned by solve keeps its value, whatever is solved afterwards. solve starts at the current point of its problem, returns the last accepted point and leaves it as the point for the next solve; it changes the point of no other problem. A problem on a fresh atom starts at the atom's initial value whatever was done before. Violated where arrays are written in place: coefs[:] = v (as in nesta), a second quasi_newton.solve, admm_problem.solve, and a problem built on an atom that was used before starts elsewhere.

Plan: `Model/SolveHeap.lean`: arrays in a heap; atoms, losses, problems and results hold references; 12 kinds of statements; the numerical content of a solve is an arbitrary function from the starting point to a sequence of proximal points with their acceptance. A simulation between the heap and a world of values (`Spec/SolveValues.lean`) for sessions without in-place writes; a frame theorem for each statement; an invariant for an array reachable from one atom only, by induction over programs. Witness sessions for each violation.

- `C99_refines_partial` — **C99** (values) Every session that makes atoms, losses and `simple_problem`s, solves them in any order and reads coefficients shows the caller exactly the values it would show if nothing were shared: each solve starts at the current point of its problem, each result is the last accepted point of its run. What is missing for the full property: statements that write in place, for which it is false (`C99_write_fails`, `C99_newton_fails`, `C99_admm_fails`).
- `C99_kept` — **C99** (kept) In whatever session the results were obtained — with `quasi_newton`, `admm_problem` and assignments too — a continuation that only makes and solves atoms, losses and `simple_problem`s changes none of them.
- `C99_solve` — **C99** (solve) In every session, `solve` of a problem starts at the current value of its `coefs`, returns the last accepted point of the run and leaves it as its `coefs`. No other problem, no other atom, no loss, no `quasi_newton` or `admm_problem`, and no array obtained before changes its value.
- `C99_point_kept` — **C99** (current point) The point a problem would start from is not changed by anything done with other problems, with its own loss or with its own atom, as long as nothing is written in place.
- `C99_warm_start` — **C99** (warm start) Solve a problem, do anything with other problems (nothing written in place), solve it again: the second solve starts at the first solution, and the first solution is still what it was.
- `C99_fresh_start` — **C99** (fresh start) Make an atom, then do anything at all that does not name it — solve other problems, run `quasi_newton` and `admm_problem`, write into arrays — then put it in a problem: the problem starts at the `initial` given for the atom, zero if none was, so its solution depends on nothing done before.
- `C99_newton` — **C99** (quasi-Newton) In every session, `quasi_newton.solve` starts at the current value of its `coefs` and returns the solution of its last inner problem, each inner problem being started at the current point. The only arrays whose contents can change are the one which was its `coefs` and the one which was its inner problem's: an array obtained before keeps its value unless it is one of these two.
- `C99_admm` — **C99** (ADMM) In every session, `admm_problem.solve` changes the contents of one array only, the one which is its `loss_coefs`; its new value is the last solution of the augmented loss.
- `C99_used_atom_fails` — **C99** (used atom) A problem built on an atom that was used before starts where the atom's last proximal call ended, not at `initial`: one step on `½(x-1)²` from a fresh atom gives `1/2`, the same statement after another problem used the atom `3/4`.
- `C99_write_fails` — **C99** (assignment) `problem.coefs[:] = v`, as `nesta` does to start a problem, changes the solution another problem returned earlier, when the two problems share the atom.
- `C99_edit_result_fails` — **C99** (editing a solution) Editing the array returned by `solve` moves the point from which the problem starts next.
- `C99_newton_fails` — **C99** (quasi-Newton twice) A second `quasi_newton.solve` that converges in its first iteration overwrites the solution the first one returned.
- `C99_admm_fails` — **C99** (ADMM) `admm_problem.solve` overwrites the solution `loss.solve` returned before the problem was made.
- `C99_loss_point_fails` — **C99** (loss) Putting a loss in a problem moves the point from which `loss.solve` starts: one step from the loss's own point would give `3/4`, it gives `1/2`.
- `C99_niter_zero_fails` — **C99** (`niter=0`) `quasi_newton.solve(niter=0)` raises in every session.

### C100 A penalised problem with any loss and any penalty is solved

For any loss that returns a convex function and its gradient and any nonsmooth atom that solves its proximal problem, simple_problem(loss, atom): objective is loss plus quadratic plus penalty; a point minimises it exactly when the proximal gradient step keeps it; with a Lipschitz gradient, solve returns finite coefficients and their objective, misses the minimum after k passes by at most 2||x0-u||^2/(t(k+1)^2), and keeps a start that is already optimal. The losses of the library qualify: quadratic losses, least squares, glms, Cox regression (any ties, after any calls), smoothed atoms, nonnegative sums and affine compositions of such losses. For logistic regression the certificate holds where all predictors are at most 100. Violated: sums and affine compositions drop the quadratics of their parts.

Plan: `Model/AnyLoss.lean`: a loss is its `smooth_objective` and its quadratic; `sum`, `affine_smooth`, the glms, the Cox glm with its state, `simple_problem` of a loss and an atom. `Props/C100_AnyLoss.lean`: the contract `IsLossFor` and the theorems about the problem for every loss and atom that meet the contracts, from C33-C36. `Props/C100_Losses.lean`: closure under sums and affine maps and the instances; the Cox gradient is Lipschitz by Hoeffding's lemma (`Lemmas/Hoeffding.lean`), the smoothed atoms by the descent lemma.

- `C100_objective` — **C100** The objective of `simple_problem(loss, atom)` for any loss that stands for `f` and any atom that stands for `pen`: wherever `f` plus the quadratic of the loss plus `pen` is finite, it is the number `objective` returns.
- `C100_certificate` — **C100** Optimality certificate for any loss and any atom: for every `L > 0` and every `β` the proximal gradient step of the problem exists, and `β` minimises the documented objective over all coefficients exactly when the step leaves it where it is.
- `C100_returns` — **C100** `solve` answers for any loss and any atom: if the loss has a Lipschitz gradient (with any constant, which the solver is not told), then from every start, and for every setting of the solver with backtracking on, a positive first step and `alpha > 1`, `solve` returns coefficients of finite documented objective together with that objective.
- `C100_rate` — **C100** How good the answer is, for any loss and any atom: with a loss whose gradient is `M`-Lipschitz, no restarts and at most 99 iterations, the coefficients `solve` returns after `k` recorded objective values miss the smallest value of the documented objective by at most `2 ‖x0 - u‖² / (t (k+1)²)` for every minimiser `u`, where `t = min(start_step, 1/(2 M alpha))`.
- `C100_keeps_solution` — **C100** A solution is kept, for any loss and any atom: if the start minimises the documented objective and the feasibility check of the atom accepts it, `solve` returns exactly the start, for every setting of the solver with backtracking.
- `C100_sum` — **C100** A sum of losses is a loss: if every summand stands for a convex function `f a` and the weights are nonnegative, then `smooth.sum(losses, weights)` stands for `∑ wₐ f a`, and if the gradients of the summands are `M a`-Lipschitz its gradient is `∑ wₐ M a`-Lipschitz. The quadratics of the summands are not part of the sum (`C100_sum_quadratic_fails`).
- `C100_affine_partial` — **C100** An affine composition of a loss is a loss: if `loss` stands for the convex `f`, then `affine_smooth(loss, T)` stands for `f ∘ T` with gradient `T'(grad f (T x))`; if `grad f` is `M`-Lipschitz and `‖T x - T y‖² ≤ K ‖x - y‖²`, its gradient is `M K`-Lipschitz. Missing: selectors with repeated positions (`C26_repeated_selector_fails`); the quadratic of the inner loss is not part of the composition (`C100_affine_quadratic_fails`).
- `C100_quadratic_partial` — **C100** `quadratic_loss(shape, Q, coef, offset, quadratic)` with symmetric positive semidefinite `Q` is a loss for `coef/2 (x - α)'Q(x - α)` with gradient `coef Q(x - α)`; if `x'Qx ≤ K ‖x‖²` its gradient is `coef K`-Lipschitz. (Partial: an asymmetric `Q` is excluded, `C28_quadratic_fails`.)
- `C100_squared_error` — **C100** `squared_error(X, Y, coef)` is a loss for `coef/2 ‖X β - Y‖²` with gradient `coef X'(X β - Y)`, for every design matrix, response and `coef ≥ 0`; if `‖X d‖² ≤ K ‖d‖²` for all `d` its gradient is `coef K`-Lipschitz.
- `C100_glm` — **C100** A glm is a loss: for least squares, Poisson, Huber and Huber SVM (the losses that are what they are documented to be, `ConvexLoss`), with any design, coefficient, offsets, case weights and convex quadratic the constructor accepts, the glm stands for `coef ∑ᵢ wᵢ ℓᵢ(xᵢ·(β - offset) - saturated_offsetᵢ)`; if the curvature of `ℓ` is at most `κ`, its gradient is `coef κ ∑ᵢ wᵢ ‖xᵢ‖²`-Lipschitz.
- `C100_cox_partial` — **C100** A Cox regression is a loss: `glm.cox(X, times, censoring, ...)`, however the times are tied and sorted, fresh or after any calls of `smooth_objective`, stands for `coef` times the negative log partial likelihood of the linear predictors, which is convex; and if every row of `X` has `‖xᵢ‖² ≤ R`, its gradient is `coef (∑ᵢ cᵢ wᵢ) R`-Lipschitz, with no bound on the coefficients. Missing: weights that leave a risk set without weight, for which the loss is nan (`C51_zero_risk_fails`).
- `C100_smoothed` — **C100** A smoothed penalty is a loss: `atom.smoothed(q)`, for every seminorm atom in either mode and every smoothing quadratic `q` with positive coefficient, stands for a convex function `V` with gradient `G` such that `V x = sup_u ⟨x,u⟩ - f*(u) - q(u)` for every conjugate `f*` of the atom, and `G` is `1/q.coef`-Lipschitz.
- `C100_logistic_certificate_partial` — **C100** Optimality certificate for logistic regression with any atom: at every `β` whose linear predictors are all at most 100, for every `L > 0`, the proximal gradient step of the problem exists, and `β` minimises the exact logistic objective over all coefficients exactly when the step leaves it where it is. (The code clips larger predictors, so its own loss is not convex, `C29_logistic_fails`.) Missing: coefficients with a predictor above 100.
- `C100_sum_quadratic_fails` — **C100** `smooth.sum` drops the quadratics of its summands: the objective of the sum of one loss with weight one is not the objective of that loss.
- `C100_affine_quadratic_fails` — **C100** `affine_smooth` drops the quadratic of the loss it composes: the objective of the composition with the identity is not the objective of the loss.

### C101 Cone constraints on affine images have the right feasible set, conjugate and dual

For the orthants, the zero and the full space, and the epigraphs of the l1, l2 and sup norms with their polars: cls.affine(D, a) and cls.linear(D, offset=a) build an object that evaluates to 0 (plus the attached quadratic at D x) wherever D x + a is in the cone, and to infinity at every point that is further than 1e-5 relative from it. The class table pairs each cone with its polar; the conjugate of a cone object with offset and linear term is the Fenchel conjugate and conjugating twice gives the same function back. proximal solves the proximal problem. The pair returned by dual represents the constraint, so that minimising a strongly convex function subject to D x + a in the cone through dual_problem returns the unique constrained minimiser. Violated: the proximal map of the l2 epigraph, and operators that carry an offset of their own (dropped).

Plan: `Model/AffineCone.lean`: the ten classes of the table with `constraint` and `cone_prox` (from `Model/Cones.lean`), cone objects with offset and quadratic, `get_conjugate`, `linear`/`affine`, `affine_cone` objects and their dual. `Props/C101_Cones.lean`: the cones are stated as sets (`coneOf`), polarity and conjugacy are proved class by class, feasibility through the tolerance of the check, the proximal maps from C10, C16, C17, the constrained problem from C68.

- `C101_polar` — **C101** the table of conjugate classes pairs each cone with its polar: a vector lies in the cone of the other class of the pair exactly if it makes no acute angle with a vector of the first.
- `C101_conjugate` — **C101** the conjugate of a cone object with any array offset and any linear and constant term is a cone object, of the polar class, which denotes the Fenchel conjugate.
- `C101_involution` — **C101** conjugating a cone object twice gives back an object of the same class denoting the same function.
- `C101_values` — **C101** `cls.affine(D, α, quadratic=q)`, and `cls.linear(D, offset=α, ...)`, build an object whose checked value at a point `x` with `D x + α` in the cone is `q(D x)`; conversely a point whose checked value is finite has `D x + α` within `10⁻⁵ max(1, ‖D x + α‖∞)` of the cone in every coordinate and its value is again `q(D x)`; the unchecked value is always `q(D x)`.
- `C101_proximal_partial` — **C101** `proximal` of a cone object, for the eight classes other than the epigraph of the l2 norm and its polar, with any offset and any linear and constant term: for a quadratic with positive coefficient and array center it returns, and what it returns is the unique minimiser of the quadratic plus the function of the object. Missing: the l2 epigraph and its polar, where it is false (`C101_l2_epigraph_fails`).
- `C101_dual` — **C101** the pair `(D, g)` returned by `dual` represents the constraint: for every `x`, the indicator of `D x + α ∈ cone` plus `⟨l, D x⟩ + c0` is the supremum over `u` of `⟨u, D x⟩ - g(u)`, unbounded where the constraint is violated; `g` is a convex cone object of the polar class.
- `C101_cone_dual` — **C101** the attribute `dual` of a cone object itself, with any array offset, linear and constant term, is the identity and a cone object `g` of the polar class which represents it: its function at `x` is the supremum over `u` of `⟨u, x⟩ - g(u)`.
- `C101_solve` — **C101** a constrained problem solved through its dual: minimise a strongly convex `f` subject to `D x + α ∈ cone`, where the constraint is the object `cls.affine(D, α)`, its dual is handed to `dual_problem`, and the last gradient evaluation of the solver is at a minimiser of the dual objective. The vector returned is the unique minimiser of `f` over the feasible set, and minus the optimal dual value is its value.
- `C101_l2_epigraph_fails` — **C101** fails for the epigraph of the l2 norm: `l2_epigraph((2,)).proximal` with center `(1; 3)`, a point of the cone, returns `(2; 2)`.
- `C101_operator_offset_fails` — **C101** fails for a transform with an offset: `nonnegative.linear(affine_transform(1, -1))` should be the constraint `x - 1 ≥ 0`; `x = 0` is accepted, the offset being dropped.
- `C101_constructor_subtracts` — **C101** `affine_cone(cone, affine_transform(D, α))`: the constructor adds `α` to the offset `β` of a copy of the cone, so that the checked value is decided by `D x - β - α` (an offset of a cone is subtracted), the unchecked value is the quadratic at `D x`.
- `C101_constructor_offset_fails` — **C101** fails for `affine_cone(cone, affine_transform(D, α))`: `affine_atom` documents the composition with `D x + α`; `nonnegative` composed with `x + 1` accepts `x = 1` and rejects `x = 0`, where `x + 1 = 1` is nonnegative.

### C102 Solutions depend on the tuning parameter and on the data as they should

For simple_problem(loss, atom) with any convex loss (with its quadratic) and any of the library's penalties: the zero vector is the solution exactly when minus the gradient at zero is in the ball of radius lagrange of the conjugate seminorm, which is also exactly when a proximal gradient step from zero stays there, and exactly when conjugate.seminorm(-grad, lagrange=1) <= lagrange (this number is wrong for positive_part and max_positive_part), so default_lagrange_sequence starts exactly where the solution leaves zero. Raising the multiplier never raises the penalty of the solution and never lowers its loss, and the answers of solve are ordered the same way up to their accuracy bounds. A solution in Lagrange form solves the bound form at its own penalty, and every solution of a bound form with positive bound solves the Lagrange form for some multiplier. Proximal maps are firmly nonexpansive. A quadratic with positive coefficient makes the solution unique and the coefficients returned by solve converge to it. For least squares, all solutions have the same fitted values, those returned by solve converge to them, and fitted values are nonexpansive in the response.

Plan: `Props/C102_Tuning.lean`, on the models of C90 (any atom) and C100 (any loss). `IsPenaltyFamily` states what Lagrange and bound form of a penalty share; proved for the seven seminorms and the group lasso. The threshold at zero from the tangent inequality and the support function of C13; the multiplier from the slopes of the value function on the two sides of the bound; uniqueness, rates and nonexpansiveness from growth of the objective around a solution.

- `C102_seminorm_family` — **C102** The seven seminorms of `seminorms.py` come in Lagrange and in bound form: with any offset and any convex quadratic, the two objects stand for `lam * h(x - offset)` and for `h(x - offset) ≤ b` with the same `h`, and `h` is convex and zero at zero.
- `C102_group_lasso_family` — **C102** `group_lasso` is such a family: the mixed norm `Σ_g w_g ‖z[g]‖₂`, for weights that are 0 or at least `1e-20`.
- `C102_null_threshold` — **C102** When zero is the solution: for every convex loss with any quadratic and each of the seven seminorms with multiplier `lam` (no offset, any convex quadratic), the zero vector minimises the documented objective exactly when minus the gradient of the smooth part at zero lies in the ball of radius `lam` of the conjugate seminorm; and this is exactly when the proximal gradient step of the problem from zero stays at zero.
- `C102_null_value_partial` — **C102** The same threshold as a number: for the l1, sup and l2 norm and for `constrained_max` and `constrained_positive_part`, zero minimises the documented objective exactly when the conjugate seminorm, as the code computes it with `lagrange=1`, of minus the gradient at zero is at most the multiplier. Full property: the same for `positive_part` and `max_positive_part`, whose conjugates are `constrained_max` and `constrained_positive_part`; it fails for both, see `C102_null_value_fails`.
- `C102_sequence_partial` — **C102** The default sequence of multipliers starts where the solution leaves zero: for the l1, sup and l2 norm and for `constrained_max` and `constrained_positive_part`, a loss whose smooth part has gradient `s` at zero, and any `0 < lagrange_proportion < 1` and at least two steps, `default_lagrange_sequence(penalty, -s)` has `nstep` decreasing entries; zero solves the problem at the first entry, and at no later one (unless all entries are zero). For the three norms `default_lagrange_sequence(penalty, s)`, as the path code calls it, is the same sequence.
- `C102_path` — **C102** Along the multiplier: for any convex loss and any penalty family, and multipliers `l1 < l2`, every solution at `l2` has a penalty no larger, and a smooth part (loss with quadratics) no smaller, than every solution at `l1`.
- `C102_path_solve` — **C102** What `solve` returns along the multiplier: run the two problems from any starts (no restarts, at most 99 iterations, a loss with `M`-Lipschitz gradient). The penalties of the two answers are ordered as those of the exact solutions, up to the two accuracy bounds `2 ‖start - solution‖² / (t (k+1)²)` divided by the difference of the multipliers.
- `C102_bound_form` — **C102** From Lagrange to bound form: a solution `β` of the problem with multiplier `lam` solves the problem with the bound `h(β - offset)` (positive), and every proximal gradient step of the bound problem leaves `β` where it is.
- `C102_multiplier` — **C102** From bound to Lagrange form: for every bound `b > 0` and every solution `β` of the bound problem there is a multiplier `lam ≥ 0` such that `β` solves the Lagrange problem, and every proximal gradient step of that problem leaves `β` where it is; the multiplier is zero or the bound is reached.
- `C102_prox_nonexpansive` — **C102** Proximal maps are stable, for any atom that meets the contract: for two quadratics with the same coefficient `C > 0` the two answers satisfy `‖z₁ - z₂‖² ≤ ⟨z₁ - z₂, w₁ - w₂⟩`, and so `‖z₁ - z₂‖ ≤ ‖w₁ - w₂‖`, where `w = center - linear / C` is the minimiser of the quadratic alone.
- `C102_ridge` — **C102** A quadratic with positive coefficient (elastic net) pins the coefficients: for any loss and any atom, every `c` of finite objective is at squared distance at most `2 (objective(c) - objective(u)) / coef` from a solution `u`; so the solution is unique.
- `C102_ridge_solve` — **C102** The coefficients `solve` returns converge: with a quadratic of coefficient `C` on the loss, the squared distance of the answer to the solution, times `C / 2`, is at most the accuracy bound of C100.
- `C102_fitted_values` — **C102** Fitted values of penalised least squares are determined and converge: for every atom that meets the contract, the weighted squared distance between the fitted values of what `solve` returns and those of any solution `u`, times `coef / 2`, is at most the accuracy bound of C100; and any two solutions have the same fitted values wherever the case weight is positive.
- `C102_response` — **C102** Fitted values of penalised least squares are nonexpansive in the response, for every atom that meets the contract: if `u1` solves the problem with response `y1` and `u2` the problem with `y2`, the weighted squared distance of the fitted values is at most that of the responses.
- `C102_null_value_fails` — **C102** For `positive_part` the conjugate seminorm misleads in both settings of `check_feasibility`. Least squares with one case and one coefficient: with response -1 the unchecked number is -1, below every multiplier, but zero is not the solution; with response 0 zero is the solution, but the checked number is infinite.

### C103 Epigraph cones of the group LASSO and of matrix norms behave as the cones they are named after

For the four classes of group_lasso.py (epigraph of the group LASSO norm, its polar, epigraph of the dual norm, its polar), built from any labels and weights, and for the four classes of svd_norms.py (epigraphs of the nuclear and operator norms and their polars), built from any matrix shape, with any offset and any linear and constant term: members of the cone evaluate to the quadratic, what is accepted becomes a member once the bound is changed by a factor 1 + 1e-5; the conjugate is an object of the polar class with the same groups and weights or matrix shape, denotes the Fenchel conjugate, and conjugating twice gives the function back; proximal returns the unique minimiser; dual of the object and of affine_cone(object, D) represents the function; and a problem with the constraint 'D x in the cone' handed to dual_problem through that dual returns the constrained minimiser.

Plan: `Model/EpiCone.lean`, `Props/C103_EpiCones.lean`. The two modules are instances of one record (constructor arguments, `constraint`, `cone_prox` of four classes); `IsEpiFamily` says what the four classes owe each other and is proved for both modules from C55 and C60 (bipolarity from the projection). Objects, conjugates, duals and `affine_cone` are then treated once. Zero weights and the test of the nuclear norm are counterexamples.

- `C103_constructor_subtracts` — **C103** as written, `affine_cone(a, affine_transform(D, α))` adds `α` to the offset of a copy of `a`, whose offset `β` is an array or absent: its checked value at `x` is the test of the cone at `D x - β - α` plus the quadratic at `D x`, its unchecked value is the quadratic at `D x`.
- `C103_values` — **C103** values of an object and of its compositions: `affine_cone(a, D)` with a linear map `D` exists and at `x` its checked value is `q(D x)` if `D x - offset` is in the cone; otherwise it is `q(D x)` or infinite, and where the test is sharp a finite value means that `D x - offset` with its bound multiplied by `1 + 10⁻⁵` is in the cone; the unchecked value is always `q(D x)`.
- `C103_conjugate` — **C103** the conjugate of an object with any array offset and any linear and constant term is an object of the polar class with the same arguments, which denotes the Fenchel conjugate.
- `C103_involution` — **C103** conjugating twice gives back an object of the same class with the same arguments denoting the same function.
- `C103_proximal` — **C103** `proximal` of an object, with any offset and any linear and constant term: for a quadratic with positive coefficient and array center it returns, and what it returns is the unique minimiser of the quadratic plus the function of the object.
- `C103_dual` — **C103** the pair `(D, g)` returned by `dual` of `affine_cone(a, D)` represents the composition: for every `x`, the function of `a` at `D x` is the supremum over `u` of `⟨u, D x⟩ - g(u)`, unbounded where it is infinite; `g` is a convex object of the polar class with the same arguments. The attribute `dual` of `a` itself does the same with the identity.
- `C103_solve` — **C103** a constrained problem solved through its dual: minimise a strongly convex `f` subject to `D x - offset ∈ cone`, where the constraint is `affine_cone(a, D)`, its dual is handed to `dual_problem`, and the last gradient evaluation of the solver is at a minimiser of the dual objective. The vector returned is the unique minimiser of `f` over the feasible set, and minus the optimal dual value is its value.
- `C103_group_family` — **C103** the group LASSO classes: for all labels and weights (given or the square roots of the group sizes) of at least `10⁻²⁰`, whatever order the argsort of the root finder chooses among ties, the four classes are the documented cones.
- `C103_group_sharp` — **C103** the feasibility tests of the four group LASSO classes are sharp, for all labels and positive weights.
- `C103_svd_family` — **C103** the classes of the matrix norms: for every matrix shape and every `svd` meeting numpy's contract the four classes are the documented cones (with the feasibility test of the nuclear norm only one-sided, see `C103_svd_sharp_partial`).
- `C103_svd_sharp_partial` — **C103** the feasibility tests of three of the four classes of matrix norms are sharp. Missing: the epigraph of the nuclear norm, where it is false (`C103_svd_sharp_fails`).
- `C103_zero_weight_fails` — **C103** fails for a group of weight zero: labels `0, 1` with weights `0, 1`. The conjugate of the epigraph object accepts `(5, 0; -1)`, whose inner product with the member `(1, 0; 0)` of the epigraph is positive: it is not in the polar cone.
- `C103_svd_sharp_fails` — **C103** fails for the feasibility test of the nuclear norm: the `1 × 1` matrix `(1)` with bound 0 is accepted, and so is any matrix of rank one with any bound `≥ 0`.

### C104 Multi-response regression with a matrix penalty is solved

A coefficient matrix fitted by solving mglm + penalty, for mglm over stacked_common_loglike.gaussian (and any stack of the library's losses) or over the multinomial log-likelihood, and for the matrix penalties l1_l1, linf_linf, l1_l2, linf_l2, sparse_group_block and its dual, nuclear_norm and operator_norm in Lagrange or bound form: the smooth value and gradient are those of the documented sum over columns for every history of calls, every returned matrix carries an optimality certificate, and the run returns within a computable number of steps of a documented rate. A zero row is an ordinary matrix and must not break the fit.

Plan: `Model/MultiRegression.lean`, `Props/C104_MatrixAtoms.lean`, `Props/C104_Multi.lean`. The atoms are stated as classes whose norm and proximal map may give nan; each is shown to stand for its penalty and to return the unique minimiser. The stack is a record of column losses with the weight arrays it holds; the invariant 'no weights given' makes evaluation free of side effects, and the loss then enters the FISTA theorems of C100. Stack weights and zero rows are counterexamples.

- `C104_entries_lagrange` — **C104** `l1_l1` and `linf_linf` in Lagrange form stand for `lam ∑ |Bᵢⱼ|` and `lam max |Bᵢⱼ|` of the shifted matrix plus the quadratic.
- `C104_entries_bound` — **C104** `l1_l1` and `linf_linf` in bound form stand for the constraints `∑ |Bᵢⱼ| ≤ b` and `|Bᵢⱼ| ≤ b` on the shifted matrix plus the quadratic.
- `C104_linf_l2_bound_partial` — **C104** `linf_l2` in bound form with a positive bound stands for the constraint that no row of the shifted matrix has a norm above the bound. Missing: bound zero (`C57_linf_l2_bound_zero_fails`).
- `C104_sparse_group_block` — **C104** `sparse_group_block` in Lagrange form stands for `lam (l1 ∑ |Bᵢⱼ| + l2 ∑ᵢ ‖Bᵢ‖)` of the shifted matrix plus the quadratic.
- `C104_sparse_group_block_dual` — **C104** `sparse_group_block_dual` in bound form stands for the constraint that the dual norm of the shifted matrix is at most `b`; its gauge search ends at every matrix.
- `C104_svd_lagrange` — **C104** `nuclear_norm` and `operator_norm` in Lagrange form, for any correct singular value decomposition, stand for `lam` times the nuclear and the operator norm of the shifted matrix plus the quadratic.
- `C104_svd_bound` — **C104** `nuclear_norm` and `operator_norm` in bound form stand for the constraints that the nuclear and the operator norm of the shifted matrix are at most `b`.
- `C104_bound_tests` — **C104** the checked value of a bound form, for every matrix atom, offset and quadratic: the quadratic where the norm of the shifted matrix is at most `b (1 + 10⁻⁵)` and infinite elsewhere.
- `C104_row_norms_partial` — **C104** `l1_l2` (in both forms) and `linf_l2` in Lagrange form: whenever the proximal map returns numbers they are the unique minimiser of the quadratic plus `lam ∑ᵢ ‖Bᵢ‖`, the constraint `∑ᵢ ‖Bᵢ‖ ≤ b`, or `lam maxᵢ ‖Bᵢ‖` of the shifted matrix plus the own quadratic; the values are those of these functions. Missing: arguments with a zero row, at which the result is nan (`C104_zero_row_fails`).
- `C104_zero_row_fails` — **C104** Without offset and own quadratic the three proximal maps fail when the argument `x - u/L` has a zero row: a coefficient row that is exactly zero with a zero gradient makes the result nan.
- `C104_row_norms_numbers` — **C104** When the argument `x - u/L` has no zero row the three proximal maps return numbers, so `C104_row_norms_partial` applies.
- `C104_stacked_partial` — **C104** A `mglm` over a stack of losses is a loss: for columns of least squares, Poisson, Huber and Huber SVM type, mixed in any way and each with its own coefficient and offset, with any stack coefficient, offsets, nonnegative case weights of the `mglm` and convex quadratic, fresh or after any history of evaluations, it stands for the sum over the columns of the weighted losses of the predictors of that column; and if every column has curvature `coef κⱼ ∑ᵢ wᵢ ‖xᵢ‖² ≤ M` its gradient is `M`-Lipschitz. Missing: case weights of the stack itself (`C104_stack_weights_fails`) or of its columns (`C28_stacked_fails`).
- `C104_least_squares_partial` — **C104** `mglm(X, stacked_common_loglike.gaussian(responses, coef=coef, offset=so), offset=o, case_weights=w, quadratic=quad)`, fresh or after any history of evaluations, is the least squares loss of all responses, and its gradient is `coef ∑ᵢ wᵢ ‖xᵢ‖²`-Lipschitz. Missing: weights given to the stack instead of the `mglm` (`C104_stack_weights_fails`).
- `C104_regression_partial` — **C104** Multi-response least squares with a matrix penalty is solved: for any atom standing for a penalty `pen` (nuclear and operator norm, block norms, `C104_svd_lagrange`, `C104_entries_lagrange`, ...), from any start, `solve` with `m ≤ 99` iterations, backtracking and no restarts returns coefficients of finite documented objective, within `2 ‖B₀ - B‖² / (t (k + 1)²)` of the minimum after `k` passes, `t = min(start_inv_step, 1 / (2 M alpha))`, `M = coef ∑ᵢ wᵢ ‖xᵢ‖²`; and a proximal gradient step of any length leaves `B` where it is exactly when `B` minimises. Missing: as in `C104_least_squares_partial`.
- `C104_stack_weights_fails` — **C104** Case weights given to the stack are applied once more at every evaluation: the `mglm` hands its own weight array to the stack, which multiplies it in place. With one case of response 0, one unit coefficient and stack weight 2 the loss is 1 at the first evaluation and 2 at the second.
- `C104_zero_column_fails` — **C104** A feature that is zero in every case makes `solve` fail for a row penalty: with the `l1_l2` penalty of any multiplier, least squares responses and a design with a zero column, the default start at zero coefficients makes the first proximal step divide 0 by 0.
- `C104_multinomial_partial` — **C104** A multinomial `mglm` given a quadratic, as a loss: at every coefficient matrix whose linear predictors are all within 50 in absolute value the three modes agree and give the exact negative log likelihood and its gradient. Missing: matrices with a predictor beyond 50 (`C28_multinomial_fails`).
- `C104_multinomial_certificate_partial` — **C104** Optimality certificate for multinomial regression with any matrix atom: at every coefficient matrix whose linear predictors are all within 50 in absolute value and for every `L > 0` the proximal gradient step exists, and the matrix minimises the exact penalised negative log likelihood over all matrices exactly when the step leaves it where it is. Missing: matrices with a predictor beyond 50, where the code clips and its loss is not convex (`C29_multinomial_fails`).

### C105 Every class method that builds a multi-response loss builds the documented one

mglm.stacked and stacked_common_loglike.gaussian, logistic, poisson, huber, huber_svm and cox return an object whose value and gradient are coef times the sum over the responses of the documented loss of that response, for every history of evaluations; for Cox models with several event times per case this sum of partial likelihoods, with a matrix penalty, is minimised by solve with the certificate and rate of every other loss.

Plan: `Model/StackedFactories.lean`, `Props/C105_Factories.lean`. The class methods are functions to an outcome (object or exception). A stack of Cox losses is a record with the buffers of every column; the loop over the columns is a fold with the shared weight array, and the invariant 'every column reachable, own weights one' gives its value; each column is a Cox regression of C100, and the sum enters the FISTA theorems. Four class methods raise for every input.

- `C105_cox_partial` — **C105** `mglm(X, stacked_common_loglike.cox(_, event_times, censoring, coef, offset=so), offset=o, case_weights=w, quadratic=quad)`, however the times of each column are tied and sorted, fresh or after any history of evaluations, stands for `coef` times the sum over the columns of the negative log partial likelihoods, which is convex; and its gradient is `M`-Lipschitz if `‖xᵢ‖² ≤ R` for every case and `coef (∑ᵢ cᵢⱼ wᵢ) R ≤ M` for every column. Missing: weights that leave a risk set without weight, for which the loss is nan (`C51_zero_risk_fails`), and weights of the stack itself (`C104_stack_weights_fails`).
- `C105_cox_regression_partial` — **C105** Regression of several event times with a matrix penalty is solved: for any atom standing for a penalty `pen`, from any start, a proximal gradient step of any length leaves `B` where it is exactly when `B` minimises the documented objective; `solve` with backtracking returns coefficients of finite documented objective; and with `m ≤ 99` iterations and no restarts they are within `2 ‖B₀ - B‖² / (t (k + 1)²)` of the minimum after `k` passes, `t = min(start_inv_step, 1 / (2 M alpha))`. Missing: as in `C105_cox_partial`.
- `C105_admissible` — **C105** `stacked_common_loglike.cox` and `.huber_svm` return an object exactly when the arguments are admissible: nonnegative weights and, for `cox`, a nonnegative `coef`; otherwise they raise ValueError. An unknown mode of evaluation is a ValueError too.
- `C105_cox_stack_weights_fails` — **C105** Weights given to `stacked_common_loglike.cox` itself are applied once more at every evaluation of the `mglm`, and reach the second column too: with one case, weight 2 and one observed event time the loss is `2 log 2` at the first evaluation and `4 log 4` at the second, at every coefficient.
- `C105_zero_risk_fails` — **C105** One risk set without weight in one column makes the value of the whole loss nan, at every coefficient.
- `C105_huber_svm_partial` — **C105** `mglm(X, stacked_common_loglike.huber_svm(_, successes, 1, offset=so), offset=o, case_weights=w, quadratic=quad)`, fresh or after any history of evaluations, stands for the sum over the columns of the weighted smoothed hinge losses; for labels 0 and 1 its gradient is `∑ᵢ wᵢ ‖xᵢ‖²`-Lipschitz. Missing: the argument `coef` (`C105_huber_svm_coef_fails`), smoothing parameters other than 1 (`C28_huber_svm_fails`), weights of the stack itself (`C104_stack_weights_fails`).
- `C105_huber_svm_coef_fails` — **C105** `stacked_common_loglike.huber_svm` ignores its argument `coef`: for all arguments the object does not depend on it, and with one case, label 1, unit design and `coef = 2` the loss at 0 is 1/2 instead of the documented 1.
- `C105_broken_fails` — **C105** For every input `mglm.stacked`, `stacked_common_loglike.poisson` and `.huber` raise NameError, because their bodies use names bound neither by a parameter nor by the module, and `.logistic` raises TypeError with and without `trials`: no input makes them return an object.

### C106 The dual classes of the structured penalties are the documented penalties, and terms are the parts of the seminorm

group_lasso_dual, sparse_group_lasso_dual, the weighted supnorm and slope_conjugate, with any offset and quadratic, stand for the documented dual norm (Lagrange form) or for the constraint that it is at most bound (bound form): proximal returns the minimiser and nonsmooth_objective the value; terms(x) are the numbers whose sum (primal classes) or maximum (dual classes) is seminorm(x, lagrange=1).

Plan: `Model/DualAtoms.lean`, `Props/C106_DualAtoms.lean`. Each class is a record of its four methods; the contract `IsAtomFor` of C90 (what solvers need) is proved from the proximal theorems of C20-C23 and convexity of the dual norms. The sum or maximum of `terms` is compared with the seminorm; the dual norm of the sparse group penalty is proved to be the maximum over the groups. Negations for the Lagrange forms that raise, the truth value returned as a constraint, `terms` with inverted weights.

- `C106_group_lasso_dual` — **C106** `group_lasso_dual` with a Lagrange multiplier stands for `lam * max_g ‖z[g]‖₂ / w_g` of `z = x - offset`, with `z[g] = 0` wherever `w_g = 0`, plus its quadratic. Weights are 0 or at least `1e-20`, not all 0; any order of ties.
- `C106_group_lasso_dual_bound` — **C106** `group_lasso_dual` with a bound stands for the constraint `‖z[g]‖₂ ≤ bound * w_g` for every group, on `z = x - offset`, plus its quadratic, for any nonnegative weights.
- `C106_sparse_group_dual_bound_partial` — **C106** (partial) `sparse_group_lasso_dual` with a bound meets the contract of the solvers for the constraint that `z = x - offset` is in the dual ball of radius `bound`: its proximal map and its objective without feasibility check are right. Missing: with the check the objective is wrong, `C106_sparse_dual_feasibility_fails`, and there is no Lagrange form, `C106_sparse_dual_lagrange_fails`.
- `C106_sparse_dual_feasibility_fails` — **C106** fails for `nonsmooth_objective(x, check_feasibility=True)` of a `sparse_group_lasso_dual` in bound form. `constraint` returns a truth value: the objective is 1 too large at 0, a point of every ball, for all weights and bounds; and with one feature of lasso weight 1 and `bound = 1` it is 0 at the point 5, outside of the ball, where it should be infinite.
- `C106_sparse_dual_lagrange_fails` — **C106** fails: a `sparse_group_lasso_dual` in Lagrange form is of no use. Its objective raises (here `nan`) and its proximal map raises, for all weights, parameters, quadratics and points. (For an object in bound form `seminorm(x, lagrange=1)` approximates the dual norm, C50.)
- `C106_weighted_sup_lagrange_partial` — **C106** (partial) The weighted `supnorm` with a Lagrange multiplier stands for `lam * max_i w_i |z_i|` of `z = x - offset`, with `z_i = 0` wherever the weight is infinite, plus its quadratic. Finite weights are positive and at most `1e20`, and there is one. Missing: zero weights, for which `lagrange_prox` can return nan (`C23_sup_lagrange_prox_fails`), and the case of no finite weight, `C106_weighted_sup_infinite_fails`.
- `C106_weighted_sup_bound_partial` — **C106** (partial) The weighted `supnorm` with a bound stands for the constraints `w_i |z_i| ≤ bound`, `z_i = 0` wherever the weight is infinite, on `z = x - offset`, plus its quadratic. Missing: `bound = 0` together with a zero weight, where `bound_prox` returns nan (`C23_sup_bound_zero_fails`), and the case of no finite weight.
- `C106_weighted_sup_values` — **C106** The values of the weighted `supnorm`: `lam * max_i w_i|x_i|` over the finite weights; `constraint` accepts `x` exactly when `w_i|x_i| ≤ bound (1 + 1e-5)` for the finite weights and `x_i = 0` for the infinite ones.
- `C106_weighted_sup_infinite_fails` — **C106** fails without a finite weight: the objective at the only feasible point 0 raises (`max` of an empty array), in Lagrange and in bound form with the feasibility check.
- `C106_slope_conjugate_bound` — **C106** `slope_conjugate` with a bound stands for the constraint that `z = x - offset` is in the dual ball of the slope norm, `⟨z,u⟩ ≤ bound` whenever `Σ_i w_i |u_π(i)| ≤ 1` for every order `π`, plus its quadratic; for decreasing positive weights, any correct isotonic regression routine and any order of ties.
- `C106_slope_conjugate_lagrange_fails` — **C106** fails for `slope_conjugate` in Lagrange form: its proximal map never answers (`lagrange_prox` raises `NotImplementedError`).
- `C106_group_terms` — **C106** `group_lasso.terms(x)` are the `w_g ‖x[g]‖₂`, and `seminorm(x, lagrange)` is `lagrange` times their sum.
- `C106_sparse_group_terms` — **C106** `sparse_group_lasso.terms(x)` are the `w_g ‖x[g]‖₂ + Σ_{i ∈ g} a_i |x_i|`, and `seminorm(x, lagrange)` is `lagrange` times their sum.
- `C106_group_dual_terms` — **C106** `group_lasso_dual.terms(x, check_feasibility=False)`: the largest entry is the seminorm at `lagrange = 1`, and `seminorm(x, lagrange)` is `lagrange` times it; with `check_feasibility=True` all entries are at most `b ≥ 0` exactly when `‖x[g]‖₂ ≤ b w_g` for every group.
- `C106_weighted_l1_terms_partial` — **C106** (partial) The weighted `l1norm.terms(x)` for finite weights: they are the `w_i|x_i|`, and `seminorm(x, lagrange)` is `lagrange` times their sum. Missing: infinite weights, `C106_weighted_l1_terms_fails`.
- `C106_weighted_l1_terms_fails` — **C106** fails for the weighted `l1norm.terms` with infinite weights: a coefficient that is 0, as it must be, gives the term nan, although the seminorm there is 0.
- `C106_weighted_sup_terms_inverse` — **C106** fails for the weighted `supnorm.terms`, "the args that are maximized in computing the seminorm": for finite positive weights the entries are `|x_i| / w_i`, so that their maximum is the seminorm for the inverse weights.
- `C106_weighted_sup_terms_fails` — **C106** fails for the weighted `supnorm.terms`: with one feature of weight 2, at the point 1 the seminorm is 2 and the only term is `1/2`.
- `C106_sparse_dual_norm_groups` — **C106** The dual norm of the sparse group penalty is the largest of the dual norms of its groups, when every feature is penalised: the entries of `sparse_group_lasso_dual.terms` are, exactly computed, "the args that are maximized".
- `C106_sparse_dual_terms_partial` — **C106** (partial) `sparse_group_lasso_dual.terms(x)`: for every point every search ends, and the entry of a group approximates the dual norm of the penalty on this group; the largest of these dual norms is the dual norm of the whole penalty. Missing: the entries are off by the factor `1 + 1e-5/ρ` of the tolerance of the membership test; `ρ` is a lower bound of the total weight of a feature.
- `C106_sparse_dual_seminorm_partial` — **C106** (partial) `sparse_group_lasso_dual.seminorm(x, lagrange)` of an object in bound form, for every point: the search ends, and the value is `r * lagrange` for a number `r` that approximates the dual norm `g` of `x`; it is 0 only if `g ≤ (1 + η) / 2^50`, and `inf` (nan for `lagrange = 0`) only if `g > 2^50`. Missing: the factor `1 + η` of the tolerance `1e-7` of the membership test, and the two exceptional answers; in Lagrange form the seminorm raises (`C106_sparse_dual_lagrange_fails`).
- `C106_group_dual_feasibility_partial` — **C106** (partial) With the feasibility check `group_lasso_dual` in bound form returns its quadratic where `‖z[g]‖₂ ≤ bound * w_g` for all groups of positive weight and `inf` elsewhere, `z = x - offset`. Missing: the constraint `z[g] = 0` for the groups of weight 0, `C106_group_dual_feasibility_fails`.
- `C106_group_dual_feasibility_fails` — **C106** fails for a group of weight 0 of `group_lasso_dual`: with groups `{0}` of weight 1 and `{1}` of weight 0, the point `(0,5)` is declared feasible for every bound `b ≥ 0`, and in Lagrange form its value is 0; both times the penalty the proximal map works with is infinite there.
- `C106_slope_conjugate_values` — **C106** The values of `slope_conjugate`: `seminorm(x, lagrange)` is `lagrange` times the dual norm `max {⟨x,u⟩ : Σ_i w_i |u_π(i)| ≤ 1 for every order π}`, and `constraint` accepts `x` exactly when this is at most `bound * (1 + 1e-5)`.
- `C106_primal_feasibility` — **C106** With the feasibility check, the objective in bound form of the primal classes `group_lasso`, `sparse_group_lasso`, the weighted `l1norm` and `slope` is their quadratic where the norm of `z = x - offset` is at most `bound` times a tolerance factor (1 for `group_lasso`, `1 + 1e-5` for the others), and `inf` elsewhere, in particular where a coefficient of infinite weight is not 0.

### C107 Problems made by the convenience constructors are the problems they name, and solve(quadratic=q) solves the sum

simple_problem.nonsmooth(atom) minimises the atom alone, simple_problem.smooth(loss) the loss alone, separable_problem (with singleton, fromatom) loss plus the atoms over their groups, simple_problem(signal_approximator(Y, c), atom) denoises: its solution is atom.proximal(sq(c, Y, 0, 0)). solve(quadratic=q) on any problem is the run on the problem whose loss has q added. In every case solve returns, with a bound on the distance to the solution in terms of the length of the history.

Plan: `Model/ProblemFactories.lean`, `Props/C107_ProblemFactories.lean`, `Lemmas/FistaCongr.lean`. Two problems with the same functions and the same proximal gradient steps have the same runs of FISTA (induction on the fuel of both loops); the sums of quadratics are shown to be associative as objects, so moving a quadratic from the problem to the loss changes no step. Existence, accuracy and distance to the solution follow from C100 and C102 for every loss and atom. Negation: `proximal_optimum` never returns.

- `C107_solve_quadratic_partial` — **C107** `solve(quadratic=q)` of a problem with any loss and any atom is the same run of the solver, with the same history, coefficients and value, as `solve()` of the problem whose loss has `q` added to its quadratic. (Partial: if the quadratic of the loss has a float other than 0 as its center, the two objectives differ by a constant, `C14_collapsed_fails`.)
- `C107_solve_returns_partial` — **C107** `solve(quadratic=q)` answers for any loss with a Lipschitz gradient and any atom: from every start it returns coefficients where loss, penalty, quadratic of the loss and `q` sum to a finite number, together with that number. (Partial: float centers other than 0 are excluded.)
- `C107_solve_rate_partial` — **C107** How good the answer of `solve(quadratic=q)` is: after `k` recorded values it misses the smallest value of the documented objective by at most `2 ‖x0 - u‖² / (t (k+1)²)`, `t = min(start_step, 1/(2 M alpha))`, for every minimiser `u`; and the squared distance to `u`, times half of the sum of the coefficients of `q` and of the quadratic of the loss, is at most the same. (Partial: float centers other than 0 are excluded.)
- `C107_nonsmooth` — **C107** `simple_problem.nonsmooth(atom)` is the problem of minimising the atom alone: its objective is the atom's function where that is finite; from every start `solve` returns coefficients with a finite value, and after `k` recorded values misses the smallest value by at most `2 ‖x0 - u‖² / (start_step (k+1)²)` for every minimiser `u` - no constant of the atom enters.
- `C107_nonsmooth_prox` — **C107** The proximal map and the solver agree: if `atom.proximal(q)` returns `z` then the coefficients `c` that `simple_problem.nonsmooth(atom).solve(quadratic=q)` returns after `k` recorded values satisfy `coef(q)/2 ‖c - z‖² ≤ 2 ‖x0 - z‖² / (start_step (k+1)²)`.
- `C107_smooth_partial` — **C107** `simple_problem.smooth(loss)` is the problem of minimising the loss: `solve()` returns `c` with history `hist` exactly when the run of FISTA that `loss.solve()` makes, started from zero, does; and the objective is that of the loss. (Partial: a quadratic of the loss whose center is a float other than 0 shifts the recorded values, `C14_collapsed_fails`.)
- `C107_smooth_solves` — **C107** `simple_problem.smooth(loss).solve()` for a loss with a Lipschitz gradient: from zero it returns coefficients with the value of loss plus quadratic there, and after `k` recorded values it misses the smallest value by at most `2 ‖u‖² / (t (k+1)²)`, `t = min(start_step, 1/(2 M alpha))`, for every minimiser `u`.
- `C107_same_penalty` — **C107** The solver sees an atom only through the function it stands for: with two atoms standing for the same function and reporting the same values, `solve` makes the same run and returns the same answer.
- `C107_separable_problem` — **C107** `separable_problem(loss, shape, atoms, groups, test_for_overlap)` is refused exactly when the test is asked for and finds overlapping groups, and otherwise is the problem of loss plus the sum of the atoms over their groups, started from zero; for disjoint groups `solve` answers and its accuracy is bounded as for a single atom.
- `C107_singleton` — **C107** `separable_problem.singleton(atom, loss)` is `simple_problem(loss, atom)` started from zero: the same run, history, coefficients and value.
- `C107_fromatom` — **C107** `separable_problem.fromatom(sep, loss)` always builds the problem of the same atoms and groups started from zero. If `sep` was made without the argument `initial`, `simple_problem(loss, sep)` is the same problem; with it, `simple_problem(loss, sep)` raises, because `sep` has no attribute `coefs`.
- `C107_signal_approximator` — **C107** Denoising is a proximal map: if `atom.proximal(sq(c, Y, 0, 0))` with `c > 0` returns `z`, then `z` is the unique minimiser of `c/2 ‖β - Y‖² + pen(β)`, which is the objective of `simple_problem(signal_approximator(Y, c), atom)`; `solve` on that problem answers from every start, and after `k` recorded values its coefficients are within `c/2 ‖coefs - z‖² ≤ 2 ‖x0 - z‖² / (t (k+1)²)`, `t = min(start_step, 1/(2 c alpha))`.
- `C107_proximal_optimum_fails` — **C107** `composite.proximal_optimum(q)` is documented to return the proximal point and the value there; it never returns, whatever the atom and the quadratics: `q.objective(argmin)` is a pair, to which a number is added.

### C108 Probit, complementary log-log, logistic and Poisson regressions are solved correctly whenever the penalty bounds the linear predictors

glm.probit and glm.cloglog accept exactly the documented data and return the weighted binomial negative log-likelihood at X(beta - offset) and its gradient wherever the linear predictors are at most 20 (probit) or 5 (cloglog); the same holds for logistic regression up to 100 and for Poisson regression without a bound. At such coefficients a proximal gradient step that does not move certifies a global minimum of the textbook objective. If every coefficient vector the atom allows has linear predictors within a third of the bound, simple_problem(glm, atom).solve() returns from every allowed start, with the textbook objective of what it returns and the accelerated rate, although the loss itself is neither convex nor globally smooth.

Plan: `Model/BinaryRegression.lean`, `Lemmas/FistaRegion.lean`, `Lemmas/ScalarExtension.lean`, `Props/C108_BoundedRegression.lean`, `Props/C108_Regressions.lean`. A convex function on an interval is extended by the integral of its clamped derivative to a convex function with bounded curvature. A run of FISTA only evaluates the loss at outputs of the proximal map, which are allowed, and at extrapolations `x + t (x - y)`, `0 <= t <= 1`, of two of them (invariant: momentum weight at least 1); if allowed predictors are within B/3, these are within B. So the run is the run with the extended loss, to which C100 applies. Negation: `saturated_offset` is ignored.

- `C108_certificate` — **C108** Optimality certificate inside the region: if all linear predictors of `β` are at most `B` in absolute value, then for every atom and every `L > 0` the proximal gradient step of `simple_problem(loss, atom)` exists, and `β` minimises the textbook penalised objective over all coefficients exactly when the step leaves it where it is.
- `C108_returns` — **C108** `solve` answers on a bounded region: if the loss is the textbook one where all linear predictors are at most `B` in absolute value, and every coefficient vector the atom allows has predictors of at most `B / 3`, then from every allowed start and for every setting of the solver with backtracking on, a positive first step and `alpha > 1`, `solve` returns allowed coefficients together with their textbook objective.
- `C108_rate` — **C108** How good the answer is on a bounded region: as in `C108_returns`, with curvature at most `κ` on `[-B, B]`, no restarts and at most 99 iterations, the coefficients `solve` returns after `k` recorded objective values miss the smallest value of the textbook objective by at most `2 ‖x0 - u‖² / (t (k+1)²)` for every minimiser `u`, where `t = min(start_step, 1/(2 M alpha))` and `M = c κ ∑ᵢ wᵢ ‖xᵢ‖²`, for any larger `M` too.
- `C108_constructor` — **C108** `glm.probit` and `glm.cloglog` accept exactly a nonnegative coefficient, nonnegative case weights and: given trials, `0 ≤ sᵢ ≤ mᵢ`; without trials, binary successes. The design, offset and saturated offset are not checked.
- `C108_history` — **C108** The answers of a probit or complementary log-log regression do not depend on the calls made before: the object is the same after any sequence of calls.
- `C108_curvature` — **C108** The curvature of the cases of a probit or complementary log-log regression is bounded on every bounded interval of linear predictors.
- `C108_binary_partial` — **C108** Probit and complementary log-log regression are the textbook regressions where the linear predictors are at most 20 (probit) or 5 (complementary log-log) in absolute value: for every design, successes, trials, coefficient, offset, case weights and convex quadratic the constructor accepts, `smooth_objective` returns the weighted binomial negative log-likelihood at `X(β - offset)` and its gradient. Missing: larger predictors (`C72_gradient_fails`), and `saturated_offset`, which is ignored (`C108_saturated_offset_fails`).
- `C108_linear_predictor` — **C108** `linear_predictor(β)` is `X β`: the linear predictor the loss is evaluated at plus `X offset`, so the two agree for all `β` exactly when `X offset = 0`.
- `C108_binary_solves_partial` — **C108** Penalised or constrained probit and complementary log-log regression: there is a constant `M`, depending only on the data, such that with every atom that keeps the linear predictors within a third of the clipping bound, `solve` answers from every allowed start and misses the smallest value of the textbook objective by at most the rate for `M`. (Partial: as `C108_binary_partial`.)
- `C108_saturated_offset_fails` — **C108** `saturated_offset` is accepted and ignored: two regressions that differ only in it answer every call alike, so with one success at linear predictor 0 and saturated offset 1 the value is not the one at linear predictor `0 - 1`.
- `C108_logistic_partial` — **C108** Logistic regression is the textbook regression where the linear predictors are at most 100 in absolute value. Missing: larger predictors (`C29_logistic_fails`).
- `C108_logistic_curvature` — **C108** The curvature of logistic regression with at most `m` trials per case is at most `m / 4`.
- `C108_logistic_solves_partial` — **C108** Logistic regression with an atom that keeps the linear predictors within `100 / 3`: `solve` answers from every allowed start and misses the smallest value of the textbook objective by at most the rate for `M = coef m/4 ∑ᵢ wᵢ ‖xᵢ‖²`, `m` the largest number of trials. (Partial: as `C108_logistic_partial`.)
- `C108_poisson` — **C108** Poisson regression is the textbook regression for every bound, with curvature `exp B` on `[-B, B]`.
- `C108_poisson_solves` — **C108** Poisson regression with an atom that keeps the linear predictors within `B / 3`, for any `B`: `solve` answers from every allowed start and misses the smallest value of the textbook objective by at most the rate for `M = coef exp(B) ∑ᵢ wᵢ ‖xᵢ‖²`.

### C109 Penalised multinomial regression is solved, and its two parametrisations and logistic regression are one model

The multinomial negative log-likelihood of mglm.multinomial, with and without baseline category, is convex in the coefficient matrix, and its gradient is Lipschitz with constant coef * sum_i w_i N_i |x_i|^2 (N_i trials of case i). If every coefficient matrix the atom allows keeps the linear predictors within 50/3, simple_problem(loss, atom).solve() returns from every allowed start, with the exact objective of what it returns and the accelerated rate. mglm.multinomial(baseline=True) at B has the value, and the first columns of the gradient, of mglm.multinomial(baseline=False) at B with a column of zeros added. Without a baseline, adding one vector to all columns does not change the loss. With two categories and a baseline the loss is that of glm.logistic.

Plan: `Props/C109_Multinomial.lean`. Hoeffding's lemma bounds log-sum-exp by its tangent plus half the squared largest change of an argument, and Cauchy-Schwarz bounds the change of a predictor. A loss that is exact on the region visited by the run gives the run of the exact loss (`Lemmas/FistaRegion.lean`), so C100 applies. The parametrisations are compared by evaluating the modelled code for both.

- `C109_curvature` — **C109** The negative log likelihood of multinomial regression, in both parametrisations, is a convex function of the coefficient matrix with a gradient everywhere, and the gradient is Lipschitz with constant `coef ∑ᵢ wᵢ Nᵢ ‖xᵢ‖²`, `Nᵢ` being the number of trials of case `i`, for all counts and coefficients the constructor accepts and nonnegative weights.
- `C109_solves_partial` — **C109** Penalised or constrained multinomial regression, with or without baseline category: with every matrix atom that keeps the linear predictors within 50/3, `solve` answers from every allowed start and misses the smallest value of the exact penalised negative log likelihood by at most the rate for the Lipschitz constant of `C109_curvature`, or any larger positive `M`. Missing: atoms that allow larger predictors, where the loss is clipped and not convex (`C29_multinomial_fails`).
- `C109_baseline` — **C109** The model with baseline category is the model without it whose last column of coefficients is zero: for every input accepted with `baseline=True`, the same counts with `baseline=False` and offsets extended by a zero column are accepted too, and at every coefficient matrix, clipped or not, the values agree, and the gradient of the one is the first columns of the gradient of the other.
- `C109_shift` — **C109** Without baseline category the model does not identify the coefficients: adding one vector to all columns does not change the loss, as long as the linear predictors stay within 50 before and after.
- `C109_two_categories` — **C109** With two categories and a baseline the model is logistic regression: for counts `(sᵢ, tᵢ - sᵢ)` accepted by both constructors with the same design, coefficient, weights and offsets, the values agree at every coefficient vector whose linear predictors are within 50.

### C110 partial_svd returns orthonormal vectors, never overstates a singular value, and gains with every pass

For every matrix, rank, padding, start, tolerance, pass limit and stopping rule with which partial_svd answers: the left vectors it returns are orthonormal, so are the right vectors, each value is positive and equals u'Xv, none exceeds the operator norm of X and their sum does not exceed its nuclear norm. Allowing more passes never reduces what the leading m right vectors capture, for any m. If one more pass would leave the right vectors unchanged up to signs, the triplets are exact singular triplets. With sigma the largest singular value, z its left vector and u the first column of the start, the first value d after K passes satisfies d <= sigma and |<z,u>| sigma^(2K-1) <= |u| d^(2K-1), so it tends to sigma with K if <z,u> is not zero. (A start orthogonal to z never finds sigma, and asking for more values than X has rows raises IndexError.)

Plan: `Model/PowerSvd.lean` models the loop pass by pass with `np.linalg.qr` as any function meeting its contract (`Spec/QrFactor.lean`); `C110_factors_exist` shows by Gram-Schmidt that such functions exist. `Props/C110_PartialSvd.lean`: `R = U'XV`, Bessel's inequality twice for monotonicity, and an invariant over passes on the components along the leading singular pair for the rate. Not modelled: more columns than rows when no more values are wanted than rows.

- `C110_factors_exist` — **C110** arrays with at least as many rows as columns have a QR factorisation: the contract can be met.
- `C110_orthonormal` — **C110** whatever the start, the tolerance and the stopping rule, the left vectors returned are orthonormal, so are the right vectors, there are at most as many as asked for, and each value is positive and is `uᵀ X v` of its two vectors.
- `C110_never_exceeds` — **C110** no returned value exceeds the operator norm of `X`, and all together they do not exceed its nuclear norm, however few passes were made.
- `C110_monotone` — **C110** allowing more passes never loses ground: for each `m`, the leading `m` right vectors after up to `K'` passes capture at least as much of `X` as those after up to `K ≤ K'`, for any start, tolerance and stopping rule.
- `C110_stationary` — **C110** an exact fixed point is a decomposition: if one more pass would give the same right vectors up to signs, each returned triplet satisfies `X v = d u` and `Xᵀ u = d v`.
- `C110_leading_value` — **C110** how close the leading value gets: with `σ` the largest singular value, `z` and `w` its unit singular vectors, and `u` the first column of the start, after the `K ≥ 1` passes that were made the first value returned, `d`, satisfies `d ≤ σ` and `|⟨z, u⟩| σ^(2K-1) ≤ ‖u‖ d^(2K-1)`.
- `C110_converges` — **C110** when the start has a component along the leading left singular vector and the tolerance is negative, so that only the number of passes stops the loop, the first value returned tends to the largest singular value as passes are added.
- `C110_answers` — **C110** a call with room for its columns answers: at least one pass, a tolerance below one, no more columns in the warm start than wanted and no more wanted than there are rows.
- `C110_more_values_than_rows_fails` — **C110** more singular values than rows cannot be asked for: the request is cut to the number of columns of `X` but not to the number of its rows, and the call raises `IndexError`.
- `C110_start_fails` — **C110** the leading value can be missed for good: of `diag(2, 1)`, whose largest singular value is 2, a warm start at the second singular vector gives the value 1, for any factorisation routine, number of passes, tolerance below one and stopping rule.

### C111 Solving again with min_its=1 certifies an answer, and repeating it always ends

For every convex loss with an M-Lipschitz gradient and every atom, let solve(min_its=1) be called with backtracking and the objective stopping rule. If the call records one objective value, the objective vc of its answer c exceeds that of every u by at most gap + sqrt(2 gap / t |c-u|^2), with gap = tol max(|vc|,1) and t = min(start_step, 1/(2 M alpha)). If the objective of the start exceeds that of no other coefficients by tol, the call records one value. With the default restarts and tol > 1e-10, a call that records more values lowers the objective by at least tol; so if the objective is v0 at the start and never below B, among more than (v0-B)/tol calls in a row on the same object one records a single value and is certified. If the quadratic of the loss has coefficient q > 0 (a ridge term, an elastic net), a certified c with r = gap (1 + 2/(t q)) has objective within 2 r of the minimum and q/4 |c - solution|^2 <= r.

Plan: `Props/C111_Certified.lean`, on the models of `FISTA.fit` and `simple_problem.solve`: the first two passes are plain proximal gradient steps, so a stop at the first test bounds the proximal gradient step of the answer; the invariant `Ok` of every pass (`Lemmas/Stopping.lean`, shared with C96) gives the decrease of a call that goes on; induction over the calls. For all losses and atoms through the contracts of C100 and C90.

- `C111_sound` — **C111** A call that stops at its first test certifies its answer: for any loss with an `M`-Lipschitz gradient and any atom, if `solve(min_its=1)`, with backtracking, the objective stopping rule and room for two passes, records one objective value, then the coefficients `c` it returns, of objective `vc`, exceed the objective of every `u` by at most `gap + sqrt (2 gap / t ‖c - u‖²)`, where `gap = tol max(|vc|, 1)` and `t = min(start_step, 1/(2 M alpha))`. Restarts and the other settings do not matter.
- `C111_complete` — **C111** A start that is good enough passes: if the objective of the start exceeds that of no coefficients by `tol` or more, the call records one objective value and its answer is at least as good as the start.
- `C111_progress` — **C111** A call that goes on lowers the objective: with monotonicity restarts and a tolerance above `1e-10` (the defaults), a call from coefficients of finite objective `v0` that records more than one value returns coefficients of objective at most `v0 - tol`.
- `C111_repeat` — **C111** Solving again and again ends with a certified answer: let one problem object be solved `N` times in a row with `min_its=1` and otherwise the default rules, each call from where the last one stopped, and let the objective be finite at the start, with value `v0`, and nowhere below `B`. If `N > (v0 - B) / tol`, one of the calls recorded a single value, and its answer is certified as in `C111_sound`.
- `C111_repeat_returns` — **C111** such calls can always be made: for a loss with a Lipschitz gradient, from every start and for every number `N` of calls, every one of the `N` calls of `solve` on the same object returns.
- `C111_ridge` — **C111** With a ridge term the certificate bounds everything by known numbers: if the quadratic of the loss has coefficient `q > 0` (as in an elastic net), a call of `solve(min_its=1)` that records one value returns coefficients `c` of objective `vc` with `vc - min ≤ 2 r` and `q/4 ‖c - solution‖² ≤ r`, where `r = tol max(|vc|, 1) (1 + 2 / (t q))` and `t = min(start_step, 1/(2 M alpha))`. No distance of the start from the solution enters.

### C112 The trend filter penalises exactly the departures from polynomials, and the fused lasso is a lasso in its jumps

For distinct knots in any order, entry i of trend_filter(knots, order=k) applied to x is zero exactly when the k+1 values at positions i..i+k lie on one polynomial of degree below k in the knots; a run of zero entries p..q means exactly that the values at p..q+k lie on one polynomial, and the whole output is zero exactly when all values do. For strictly increasing knots trend_filter_inverse(knots) applied to the first order trend filter of x is x minus its mean, and for every loss and every lam, a constant c and jumps theta minimise loss(c + inverse(theta)) + lam |theta|_1 exactly when beta = c + inverse(theta) minimises loss(beta) + lam |trend_filter(beta)|_1. (Strictness is needed: with repeated knots the inverse cannot produce the jump between them.)

Plan: `Props/C112_FusedLasso.lean` on the model of C44: an entry is a divided difference, which sees `order + 1` values only; Lagrange interpolation gives the polynomial, uniqueness of interpolation glues windows; telescoping for the inverse.

- `C112_zero_entry` — **C112** Entry `i` of the trend filter of order `k` is zero exactly when the `k + 1` values at positions `i, …, i + k` lie on one polynomial of degree below `k` in the knots, for any distinct knots.
- `C112_zero_run` — **C112** Where the trend filter of order `k` is zero in a row, the coefficients follow a single polynomial of degree below `k`: the entries at `p, …, q` are all zero exactly when the values at `p, …, q + k` lie on one polynomial. So a solution with few nonzero entries is a polynomial spline with few pieces.
- `C112_null_space` — **C112** The trend filter of order `k` is zero everywhere exactly when all the values lie on one polynomial of degree below `k`: these are the coefficients an l1 penalty on the trend filter leaves unpenalised.
- `C112_left_inverse` — **C112** `trend_filter_inverse` undoes the first order trend filter up to the mean: for strictly increasing knots `inverse(trend_filter(x)) = x - mean(x)`.
- `C112_fused_lasso` — **C112** The fused lasso is a lasso in the jumps: for strictly increasing knots, any loss and any `lam`, the objective of coefficients built by `trend_filter_inverse` from a constant `c` and jumps is the l1 penalised objective of the jumps; every `β` is built in this way from its mean and its trend filter; so `(c, jumps)` minimises the lasso objective exactly when the coefficients it stands for minimise the fused lasso objective.
- `C112_repeated_knots` — **C112** Repeated knots are different: with two equal knots the penalty does not see the jump between them and `trend_filter_inverse` cannot produce it, so the two problems are not the same.

### C113 A smoothed penalty is its Moreau envelope, and solving the smoothed problem solves the exact one up to a known gap

For each of the seven seminorms in Lagrange or bound form (array offset, no quadratic coefficient) and eps > 0, atom.smoothed(identity_quadratic(eps,0,0,0)) evaluates V(x) = min_z pen(z) + |x-z|^2/(2 eps); the minimum is at the point z returned by atom.proximal(identity_quadratic(1/eps, x, 0, 0)) and the gradient is (x-z)/eps. In bound form V is the squared distance to the constraint set over 2 eps and vanishes exactly on it. For the five seminorms that are finite everywhere with multiplier r, pen - gap <= V <= pen with gap = eps r^2 K/2, K the number of coefficients for the l1 norm and positive part and 1 otherwise; the same holds for penalties of D x + alpha such as the fused LASSO term. Gaps add up in smooth_sum; a solution of the smoothed problem (with any further atom) is within the sum of the gaps of the smallest exact objective, and the coefficients solve returns after k recorded values are within gap + 2 |x0-u|^2/(t (k+1)^2), with u any solution of the smoothed problem, t = min(start_step, 1/(2 L alpha)) and L the sum of the Lipschitz constants.

Plan: `Props/C113_Smoothing.lean`: the proximal point of C10/C90 gives the maximiser of the supremum in C48 by Fenchel-Young, so the smoothed function is the Moreau envelope; the gap is Young's inequality per class; sums and rate from C100. Partial: operators with an offset of their own or repeated positions are excluded.

- `C113_envelope` — **C113** A smoothed atom is its Moreau envelope: for each of the seven seminorms in Lagrange or in bound form, any array offset and linear term and `eps > 0`, `atom.smoothed(identity_quadratic(eps, 0, 0, 0))` evaluates `V` with gradient `G` where `V x = min_z pen(z) + 1/(2 eps) ‖x - z‖²`, the minimum is at the point `z` that `atom.proximal(identity_quadratic(1/eps, x, 0, 0))` returns, and `G x = (x - z)/eps`.
- `C113_constraint` — **C113** Smoothing a constraint: `atom.smoothed(identity_quadratic(eps, 0, 0, 0))` of an atom in bound form is the squared distance to the constraint set over `2 eps`; it is zero exactly at the feasible points.
- `C113_smoothing` — **C113** How close the smoothed penalty is: for the l1, sup and l2 norm, the positive part and its maximum, with multiplier `r` and any array offset `α`, `atom.smoothed(identity_quadratic(eps, 0, 0, 0))` is a loss that stands for a convex function with a `1/eps`-Lipschitz gradient between `r h(x - α) - gap` and `r h(x - α)`, where `gap = eps/2 r² K` and `K` is the number of coefficients for the l1 norm and the positive part and 1 for the others.
- `C113_linear_partial` — **C113** The same for a penalty of a linear image: for `cls.affine(D, α, lagrange=r)` (the fused LASSO term of the documentation is `l1norm.linear(D, lagrange=r)`), `smoothed(identity_quadratic(eps, 0, 0, 0))` stands for a convex function between `r h(D x + α) - gap` and `r h(D x + α)`, with the same gap (counting the rows of `D`), and its gradient is `K/eps`-Lipschitz if `‖D x - D y‖² ≤ K ‖x - y‖²`. Missing: transforms with an offset of their own, selectors that repeat a position.
- `C113_sum` — **C113** Sums: `smooth_sum` of smoothings (a plain loss is a smoothing of itself with gap 0), with nonnegative weights, is a smoothing of the sum; gaps and Lipschitz constants add up with the weights.
- `C113_loss` — **C113** A loss is a smoothing of itself with gap 0.
- `C113_solution` — **C113** Solutions: coefficients `u` that minimise the smoothed objective plus the remaining penalty (any atom, none included) miss the smallest value of the exact objective by at most the gap.
- `C113_rate` — **C113** What `solve` returns: for a smoothed loss, any atom, no restarts and at most 99 iterations, the coefficients `c` returned after `k` recorded values satisfy `exact(c) ≤ exact(w) + gap + 2 ‖x0 - u‖²/(t (k+1)²)` for every `w`, where `exact` is the objective with the unsmoothed penalties, `u` is any solution of the smoothed problem and `t = min(start_step, 1/(2 L alpha))`.

### C114 Nearly isotonic regression: solutions are recognised by partial sums of residuals, and a large multiplier gives isotonic regression exactly

container(signal_approximator(Y, c), positive_part.linear(-D, lagrange=lam)) with D the first differences has objective c/2 |x-Y|^2 + lam sum_i max(x_i - x_{i+1}, 0). For c > 0, lam >= 0 it has exactly one minimiser, and x is it exactly when the residuals Y - x add up to zero and c times each of their partial sums lies in [0, lam], equals lam where x drops and 0 where x rises. The minimiser has the mean of Y, lies in the range of Y, and is Y if Y is nondecreasing or lam = 0. If lam > c sqrt(n) |Y-u| for some nondecreasing u, the minimiser is nondecreasing and is the isotonic regression of Y; the isotonic regression is the minimiser exactly when lam is at least c times each partial sum of its residuals. proximal(identity_quadratic(c, Y, 0, 0)) of the container returns a point within squared distance 2 delta / c of the minimiser if its inner solver reaches the dual optimum up to delta.

Plan: `Props/C114_NearlyIsotonic.lean`: the container of C69 with the penalty of C67 and the loss of C79; the residual check is derived by shifting the first i coefficients and used through summation by parts. The loss of the example script is written `R.quadratic.shift(-Y, coef=0.5)`, for an older interface; the model uses `signal_approximator`. Partial: the accuracy of the inner FISTA run of `container.proximal` is a hypothesis.

- `C114_residuals` — **C114** `x` minimises the nearly isotonic objective exactly when its residuals pass the check: they add up to zero and their partial sums stay in `[0, lam / c]`, at the upper end where `x` drops and at zero where it rises.
- `C114_unique` — **C114** For every signal there is exactly one solution, and the objective of any other `z` is larger by at least half of `c` times the squared distance.
- `C114_signal` — **C114** A solution keeps the mean of the signal and stays within its range; a signal that already is nondecreasing is its own solution, whatever the multiplier; without a penalty the solution is the signal.
- `C114_isotonic` — **C114** A large multiplier gives isotonic regression, not an approximation of it: once `lam` exceeds `c √n ‖Y - u‖` for some nondecreasing `u` (the mean of the signal, say), a solution is nondecreasing and no nondecreasing vector is closer to the signal.
- `C114_threshold` — **C114** The smallest such multiplier: the isotonic regression `x` of the signal solves the nearly isotonic problem exactly when `lam` is at least `c` times every partial sum of its residuals.
- `C114_container` — **C114** The program of `doc/examples/nearlyisotonic.py`, with the loss `signal_approximator(Y, c)`: the penalty `positive_part.linear(-D, lagrange=lam)` and the container are built, and the `objective` of the container is `c/2 ‖x - Y‖² + lam Σ max(x_i - x_{i+1}, 0)`.
- `C114_proximal_partial` — **C114** Denoising through the dual problem: `proximal(identity_quadratic(c, Y, 0, 0))` of the container, with an inner solver `fit` that reaches the dual optimum up to `δ`, returns a point whose squared distance to the solution of the nearly isotonic problem is at most `2 δ / c`; an exact inner solver gives the solution. Missing: a bound on `δ` for the inner FISTA run.

### C115 A transform applied to a matrix acts on its columns; todense gives its matrix

The docstrings of linear_map, affine_map and adjoint_map allow a two-dimensional argument. Column c of the result is the method applied to column c of the argument, for every transform built from dense, sparse or diagonal operators, selectors, intercepts, centering, identities and their sums, multiples, residuals, adjoints and compositions (designs of normalize included); adjoint_map of selectors and intercepts, and stacks, products and reshapes, raise instead. todense(T) is then a matrix M with T.linear_map(x) = M x and T.adjoint_map(u) = M' u. tensorize(T, q) acts on the columns and adds T.affine_offset to each.

Plan: `Model/Affine2d.lean`, `Props/C115_MatrixArguments.lean`: the three methods for two-dimensional arguments over the expression trees of C24, with numpy's exceptions; induction over the tree. Partial: `scaler` multiplies along the wrong axis (`C115_scaler_fails`), stacks raise (`C115_stack_fails`), `aslinear` has interchanged shapes (C24).

- `C115_columns_partial` — **C115** `linear_map`, `affine_map` and `adjoint_map` of a transform built from matrices, diagonals, selectors, intercepts, centering and their sums, multiples, residuals, adjoints and compositions treat a matrix as a list of columns: column `c` of the result is the method applied to column `c`. Missing, because it fails: transforms with a `scaler` (`C115_scaler_fails`), and the classes that raise (`C115_raises`).
- `C115_raises` — **C115** The remaining transforms without `scaler` and `posneg` raise an exception rather than return a wrong matrix: stacks and products and whatever contains one, selectors and intercepts in the adjoint direction. (A matrix with one column is not covered.)
- `C115_todense_partial` — **C115** `todense(T)` returns the matrix of `T`: multiplying by it is `linear_map`. Missing, because it fails: a `scaler`, the classes that raise, and `aslinear` of a transform that is not square, whose shapes are interchanged.
- `C115_tensorize_partial` — **C115** `tensorize(T, q)` of such a transform: `linear_map` and `adjoint_map` act on the columns, `affine_map` adds the attribute `affine_offset` of `T` to each column of the linear part; it is `T.affine_map` of each column as far as that attribute is the constant of `T`. The class cannot be used on a transform without that attribute.
- `C115_scaler_fails` — **C115** fails for `scaler`: it multiplies the columns of a square matrix by the scalings instead of the rows, so that `todense(composition(scaler(s), D))` is `D` times the diagonal matrix, not the diagonal matrix times `D`; other matrices raise.
- `C115_stack_fails` — **C115** fails for stacks: the docstring of `linear_map` allows a matrix, a `vstack` raises.

### C116 A constraint beside a penalty in a container; isotonic regression as a program agrees with pool adjacent violators

cls.affine(D, alpha), cls.linear(D) and plain objects of the cone classes can be members of a container next to a seminorm penalty: container(loss, penalty, constraint).proximal(q) returns a point within squared distance 2 delta / coef of the one minimiser of q plus the penalty over the feasible set, if its inner solver reaches the dual optimum up to delta, and that minimiser if the inner solver is exact. For container(signal_approximator(Y, c), nonnegative.linear(D)) with D the first differences, the minimiser is the fit of the isotonic regression routine used by slope, the unchecked objective is c/2 |x-Y|^2, and a finite checked objective is that value at a point that is nondecreasing up to the tolerance.

Plan: `Model/ConeContainer.lean`, `Props/C116_ConstraintInContainer.lean`: cones (C101) as members of the container of C69; the isotonic program is compared with C19/C20 through uniqueness. The loss of the example script is written `R.quadratic.shift(-Y, coef=0.5)`, for an older interface; the model uses `signal_approximator`. Partial: accuracy of the inner FISTA run is a hypothesis; l2 epigraph excluded (C101).

- `C116_cone_member_partial` — **C116** `cls.affine(D, α, quadratic=q)` and `cls.linear(D)` of the cone classes (without the l2 epigraph and its polar, see C101) are members of containers to which the theorems about `proximal` apply: the dual pair represents the constraint `D x + α ∈ cone` plus `q(D x)`, its atom is convex with a correct proximal map, and the atom used when no dual problem is solved has the proximal map of `z + α ∈ cone` plus `q(z)`.
- `C116_penalty_and_constraint_partial` — **C116** A penalty and a constraint together: `container(loss, cls1.affine(D1, α1, lagrange or bound), cls2.affine(D2, α2))` with a seminorm class and a cone class is built, and `proximal`, with an inner solver `fit` that reaches the dual optimum up to `δ`, returns a point within squared distance `2 δ / coef` of the one minimiser of the quadratic plus the penalty over the feasible set (`constrainedFn` is `⊤` elsewhere); an exact inner solver gives that minimiser. Missing: a bound on `δ` for the inner FISTA run; quadratic terms of the loss (C69).
- `C116_cone_pair_partial` — **C116** A cone object itself, with any array offset and any linear and constant term, is a member of containers to which the theorems about `proximal` apply, with the identity as transform.
- `C116_cone_itself_partial` — **C116** A cone object itself (`nonnegative(shape)`, ...), with any array offset and any linear and constant term, beside a loss: no dual problem is solved, and what `proximal` returns is the one minimiser of all quadratics (that of the argument, of the container and of the loss) plus the function of the cone.
- `C116_isotonic_partial` — **C116** Isotonic regression as a program: `container(signal_approximator(Y, c), nonnegative.linear(D))` with `D` the first differences exists, and `proximal(identity_quadratic(c, Y, 0, 0))`, with an inner solver that reaches the dual optimum up to `δ`, returns a point within squared distance `2 δ / c` of the fit computed by the routine of pool adjacent violators of the same library; an exact inner solver gives exactly that fit. Missing: a bound on `δ` for the inner FISTA run (given in C117 without monotonicity restarts).
- `C116_objective` — **C116** The `objective` of that container: without the feasibility check it is `c/2 ‖x - Y‖²`; with the check it is the same at every nondecreasing `x`, and a point with a finite checked value has that value and rises that are at least `-10⁻⁵` times the largest of 1 and the rises in absolute value.

### C117 The proximal map of a container converges to the exact one at a rate given by the length of the reported history

container.proximal(q, prox_control, return_objective_hist=True) runs the solver of the library on a dual problem at a fixed step. If the monotonicity restarts are off and dual_reference_lipschitz bounds the squared norm of the stacked transform D, the call returns a vector p and a history with m entries, 1 <= m <= max_its, and coef (m+1) |p - p*| <= 2 sqrt(dual_reference_lipschitz) |u0 - u*|, p* the exact proximal point, u0 the starting point (zero) and u* any solution of the dual problem. This needs no hypothesis about the solver for a loss with one penalty cls.affine(D, alpha). For the generalised lasso, container(loss, l1norm.linear(D, lagrange=lam)), the right-hand side is 2 lam sqrt(dual_reference_lipschitz K), K the number of rows of D; for l2norm.linear and supnorm.linear it is 2 lam sqrt(dual_reference_lipschitz). With several norm penalties the squares of these bounds add up: for container(loss, l1norm.linear(D1, lagrange=lam1), l1norm.linear(D2, lagrange=lam2)) the right-hand side is 2 sqrt(dual_reference_lipschitz (K1 lam1^2 + K2 lam2^2)). For isotonic regression, container(signal_approximator(Y, c), nonnegative.linear(D)) with D the first differences, (m+1)^2 |p - s|^2 is at most 4 dual_reference_lipschitz times the sum of the squared partial sums of Y - s, s the fit of the pool adjacent violators routine.

Plan: `Model/ContainerFista.lean`, `Props/C117_ContainerAccuracy.lean`, `Props/C117_IsotonicAccuracy.lean`: the inner run of `container.proximal` is `Fista.fit` on the dual problem with `perform_backtrack = False` and `lipschitz = dual_reference_lipschitz / coef`; the fixed-step rate (C35) on the dual objective is combined with the error bound of C69. Partial: the default `monotonicity_restart=True` and quadratic terms of the container and its members are excluded, and validity of the constant is a hypothesis (the default is `1.05 * power_L`, which can be too small: C27).

- `C117_accuracy_partial` — **C117** (partial: containers and members without quadratic terms, as in C69; the monotonicity restarts of the solver switched off by `prox_control`; `dual_reference_lipschitz` a valid bound, which the default, `1.05` times the estimate of `power_L`, is not always: C27) Let `D` be the stacked operator of the penalties, with `‖D x‖² ≤ ρ ‖x‖²`. If `proximal(proxq, prox_control)` returns the vector `p` and the history of the inner solver has `m` entries, then for every solution `u*` of the dual problem the distance of `p` to the exact proximal point satisfies `coef (m + 1) ‖p - p*‖ ≤ 2 √ρ ‖u₀ - u*‖`, where `u₀` is the point the inner solver starts from.
- `C117_returns` — **C117** the call returns: whatever the starting point and the settings, if the proximal map of the stacked dual atom never fails then `proximal` returns a vector, with or without monotonicity restarts.
- `C117_one_penalty_partial` — **C117** (partial: no quadratic terms in the container and its loss, monotonicity restarts switched off, a valid `dual_reference_lipschitz`) a loss and one penalty `cls.affine(D, α, ...)` of a seminorm class, in penalty or bound form: `proximal` returns, and its distance to the exact proximal point is bounded as in `C117_accuracy_partial`, with no hypothesis about the solver.
- `C117_generalised_lasso_partial` — **C117** (partial: no quadratic terms in the container and its loss, monotonicity restarts switched off, a valid `dual_reference_lipschitz`) The generalised lasso: `container(loss, l1norm.linear(D, lagrange=λ)).proximal(proxq, prox_control)` returns, and its distance to the minimiser `p*` of `q(β) + λ‖Dβ‖₁` satisfies `coef (m + 1) ‖p - p*‖ ≤ 2 λ √(ρ K)`, where `m` is the length of the history, `K` the number of rows of `D` and `ρ` the value of `dual_reference_lipschitz`; the bound is known before the call, up to `m`.
- `C117_l2_partial` — **C117** (partial: as `C117_generalised_lasso_partial`) The euclidean norm of a transform, `container(loss, l2norm.linear(D, lagrange=λ))`: `coef (m + 1) ‖p - p*‖ ≤ 2 λ √ρ`, with `p*` the minimiser of `q(β) + λ‖Dβ‖₂`.
- `C117_sup_partial` — **C117** (partial: as `C117_generalised_lasso_partial`) The largest entry of a transform, `container(loss, supnorm.linear(D, lagrange=λ))`: `coef (m + 1) ‖p - p*‖ ≤ 2 λ √ρ`, with `p*` the minimiser of `q(β) + λ max |Dβ|`.
- `C117_penalties_partial` — **C117** (partial: as `C117_accuracy_partial`) Any number of penalties whose dual atoms are indicators of bounded closed sets, the squared norms of whose points are at most `R_i` (every norm penalty): `proximal` returns, and `coef (m + 1) ‖p - p*‖ ≤ 2 √(ρ Σ R_i)`.
- `C117_sparse_fused_partial` — **C117** (partial: as `C117_generalised_lasso_partial`) The sparse fused lasso and its relatives, `container(loss, l1norm.linear(D₁, lagrange=λ₁), l1norm.linear(D₂, lagrange=λ₂))`: `proximal` returns, and its distance to the minimiser `p*` of `q(β) + λ₁‖D₁β‖₁ + λ₂‖D₂β‖₁` satisfies `coef (m + 1) ‖p - p*‖ ≤ 2 √(ρ (k₁ λ₁² + k₂ λ₂²))`, with `k_i` the number of rows of `D_i` and `ρ` a bound of the squared norm of the stacked transform.
- `C117_isotonic_partial` — **C117** (partial: monotonicity restarts switched off) Isotonic regression as a program, with the solver of the library: `container(signal_approximator(Y, c), nonnegative.linear(D)).proximal(identity_quadratic(c, Y, 0, 0), prox_control)`, `D` the first differences and `dual_reference_lipschitz = ρ ≥ 4`, returns a vector `p`, and if `s` is the fit of the pool adjacent violators routine of the library and `m` the length of the history, `(m + 1)² ‖p - s‖² ≤ 4 ρ Σᵢ Sᵢ²`, where `Sᵢ` is the sum of the first residuals `Yⱼ - sⱼ`, `j ≤ i`. So the two routines agree in the limit, and the bound does not depend on `c`.

