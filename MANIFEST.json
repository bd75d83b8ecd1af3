{
 "claims": [
  {
   "property": "C01",
   "status": "proved",
   "theorems": [
    "TLA.C01_slice",
    "TLA.C01_slice_refines",
    "TLA.C01_slice_slice",
    "TLA.C01_rows_cols",
    "TLA.C01_slice_vec",
    "TLA.C01_row_col",
    "TLA.C01_diag"
   ],
   "note": ""
  },
  {
   "property": "C02",
   "status": "proved",
   "theorems": [
    "TLA.C02_constructor",
    "TLA.C02_constructor_packed",
    "TLA.C02_distinct_cells",
    "TLA.C02_in_allocation",
    "TLA.C02_transpose_view",
    "TLA.C02_banded"
   ],
   "note": ""
  },
  {
   "property": "C03",
   "status": "proved",
   "theorems": [
    "TLA.C03_forward",
    "TLA.C03_backward",
    "TLA.C03_backward_violated",
    "TLA.C03_distinct_cells"
   ],
   "note": ""
  },
  {
   "property": "C04",
   "status": "proved",
   "theorems": [
    "TLA.C04_reshape_matrix",
    "TLA.C04_reshape_matrix_throws",
    "TLA.C04_reshape_empty_shape",
    "TLA.C04_reshape_vector",
    "TLA.C04_reshape_vector_throws",
    "TLA.C04_reshape_vec_matrix",
    "TLA.C04_reshape_vec"
   ],
   "note": ""
  },
  {
   "property": "C05",
   "status": "proved",
   "theorems": [
    "TLA.C05_valid",
    "TLA.C05_minMax_size",
    "TLA.C05_add_size",
    "TLA.C05_contiguous_kept",
    "TLA.C05_neutral",
    "TLA.C05_transpose_size",
    "TLA.C05_transpose_drops_contiguous",
    "TLA.C05_minMax_serves",
    "TLA.C05_add_serves",
    "TLA.C05_minMax_gaps_violated"
   ],
   "note": ""
  },
  {
   "property": "C06",
   "status": "proved",
   "theorems": [
    "TLA.C06_gemv",
    "TLA.C06_gemm",
    "TLA.C06_hemv",
    "TLA.C06_symv",
    "TLA.C06_hemm",
    "TLA.C06_symm",
    "TLA.C06_herk",
    "TLA.C06_syrk",
    "TLA.C06_her2k",
    "TLA.C06_syr2k",
    "TLA.C06_gemv_zero",
    "TLA.C06_gemm_zero",
    "TLA.C06_hemv_zero",
    "TLA.C06_symv_zero",
    "TLA.C06_hemm_zero",
    "TLA.C06_symm_zero",
    "TLA.C06_herk_zero",
    "TLA.C06_syrk_zero",
    "TLA.C06_her2k_zero",
    "TLA.C06_syr2k_zero"
   ],
   "note": ""
  },
  {
   "property": "C07",
   "status": "proved",
   "theorems": [
    "TLA.C07_copy",
    "TLA.C07_swap",
    "TLA.C07_scal",
    "TLA.C07_conjugate",
    "TLA.C07_axpy",
    "TLA.C07_dot",
    "TLA.C07_dotu",
    "TLA.C07_asum",
    "TLA.C07_rot"
   ],
   "note": ""
  },
  {
   "property": "C08",
   "status": "proved",
   "theorems": [
    "TLA.C08_gemv",
    "TLA.C08_gemv_empty",
    "TLA.C08_gemv_doc_violated"
   ],
   "note": "C08_gemv is the documented result whenever op(A) has a column; C08_gemv_empty/C08_gemv_doc_violated prove what the code does instead for zero columns (y left unscaled)."
  },
  {
   "property": "C09",
   "status": "proved",
   "theorems": [
    "TLA.C09_ger",
    "TLA.C09_geru",
    "TLA.C09_her",
    "TLA.C09_her2",
    "TLA.C09_syr",
    "TLA.C09_syr2"
   ],
   "note": ""
  },
  {
   "property": "C10",
   "status": "proved",
   "theorems": [
    "TLA.C10_hemv",
    "TLA.C10_symv"
   ],
   "note": ""
  },
  {
   "property": "C11",
   "status": "proved",
   "theorems": [
    "TLA.C11_trmv"
   ],
   "note": ""
  },
  {
   "property": "C12",
   "status": "proved",
   "theorems": [
    "TLA.C12_trsv"
   ],
   "note": ""
  },
  {
   "property": "C13",
   "status": "proved",
   "theorems": [
    "TLA.C13_gemm"
   ],
   "note": ""
  },
  {
   "property": "C14",
   "status": "proved",
   "theorems": [
    "TLA.C14_hemm_left",
    "TLA.C14_hemm_right",
    "TLA.C14_symm_left",
    "TLA.C14_symm_right"
   ],
   "note": ""
  },
  {
   "property": "C15",
   "status": "proved",
   "theorems": [
    "TLA.C15_herk",
    "TLA.C15_her2k",
    "TLA.C15_syrk",
    "TLA.C15_syr2k"
   ],
   "note": ""
  },
  {
   "property": "C16",
   "status": "proved",
   "theorems": [
    "TLA.C16_trmm_left",
    "TLA.C16_trmm_right"
   ],
   "note": ""
  },
  {
   "property": "C17",
   "status": "proved",
   "theorems": [
    "TLA.C17_trsm_left",
    "TLA.C17_trsm_right"
   ],
   "note": ""
  },
  {
   "property": "C18",
   "status": "proved",
   "theorems": [
    "TLA.C18_copy",
    "TLA.C18_swap",
    "TLA.C18_axpy",
    "TLA.C18_dot",
    "TLA.C18_dotu",
    "TLA.C18_rot",
    "TLA.C18_rotm",
    "TLA.C18_gemv",
    "TLA.C18_ger",
    "TLA.C18_geru",
    "TLA.C18_her",
    "TLA.C18_syr",
    "TLA.C18_her2",
    "TLA.C18_syr2",
    "TLA.C18_hemv",
    "TLA.C18_symv",
    "TLA.C18_trmv",
    "TLA.C18_trsv",
    "TLA.C18_gemm",
    "TLA.C18_hemm",
    "TLA.C18_symm",
    "TLA.C18_herk",
    "TLA.C18_syrk",
    "TLA.C18_her2k",
    "TLA.C18_syr2k",
    "TLA.C18_trmm",
    "TLA.C18_trsm"
   ],
   "note": ""
  },
  {
   "property": "C19",
   "status": "proved",
   "theorems": [
    "TLA.C19_ne_minus_one",
    "TLA.C19_post_decrement",
    "TLA.C19_greater",
    "TLA.C19_greater_equal",
    "TLA.C19_ascending",
    "TLA.C19_ge_zero_never_ends",
    "TLA.C19_hetd2_empty_rejected",
    "TLA.C19_hetd2_check",
    "TLA.C19_hessenberg_rq_empty"
   ],
   "note": ""
  },
  {
   "property": "C20",
   "status": "proved",
   "theorems": [
    "TLA.C20_iamax_ec",
    "TLA.C20_iamax_nc"
   ],
   "note": ""
  },
  {
   "property": "C21",
   "status": "proved",
   "theorems": [
    "TLA.C21_lasrt_safe",
    "TLA.C21_lasrt_sorted",
    "TLA.C21_lasrt_bad_id"
   ],
   "note": ""
  },
  {
   "property": "C22",
   "status": "proved",
   "theorems": [
    "TLA.C22_lamrg"
   ],
   "note": ""
  },
  {
   "property": "C23",
   "status": "proved",
   "theorems": [
    "TLA.C23_region",
    "TLA.C23_hessenberg_out_of_range",
    "TLA.C23_band",
    "TLA.C23_vector"
   ],
   "note": ""
  },
  {
   "property": "C24",
   "status": "proved",
   "theorems": [
    "TLA.C24_laset",
    "TLA.C24_lacpy",
    "TLA.C24_rejected"
   ],
   "note": ""
  },
  {
   "property": "C25",
   "status": "proved",
   "theorems": [
    "TLA.C25_transpose",
    "TLA.C25_conjtranspose",
    "TLA.C25_rejected"
   ],
   "note": ""
  },
  {
   "property": "C26",
   "status": "proved",
   "theorems": [
    "TLA.C26_lascl",
    "TLA.C26_band",
    "TLA.C26_rejected",
    "TLA.C26_hessenberg_out_of_range"
   ],
   "note": ""
  },
  {
   "property": "C27",
   "status": "proved",
   "theorems": [
    "TLA.C27_rscl_real",
    "TLA.C27_rscl_complex"
   ],
   "note": ""
  },
  {
   "property": "C28",
   "status": "proved",
   "theorems": [
    "TLA.C28_potf2",
    "TLA.C28_potrf2",
    "TLA.C28_other_triangle_irrelevant"
   ],
   "note": ""
  },
  {
   "property": "C29",
   "status": "proved",
   "theorems": [
    "TLA.C29_potf2",
    "TLA.C29_potrf2",
    "TLA.C29_info_iff"
   ],
   "note": ""
  },
  {
   "property": "C30",
   "status": "proved",
   "theorems": [
    "TLA.C30_potrf_blocked",
    "TLA.C30_potrf_rl",
    "TLA.C30_potrf",
    "TLA.C30_variants_agree",
    "TLA.C30_nb_zero_diverges"
   ],
   "note": ""
  },
  {
   "property": "C31",
   "status": "proved",
   "theorems": [
    "TLA.C31_getrf_level0",
    "TLA.C31_getrf_level0_square",
    "TLA.C31_complex_multiplier_above_one"
   ],
   "note": ""
  },
  {
   "property": "C32",
   "status": "proved",
   "theorems": [
    "TLA.C32_getrf_recursive",
    "TLA.C32_getrf_info"
   ],
   "note": ""
  },
  {
   "property": "C33",
   "status": "proved",
   "theorems": [
    "TLA.C33_trtri",
    "TLA.C33_trtri_singular",
    "TLA.C33_trtri_fails_iff"
   ],
   "note": ""
  },
  {
   "property": "C34",
   "status": "proved",
   "theorems": [
    "TLA.C34_ul_mult",
    "TLA.C34_ul_mult_empty",
    "TLA.C34_lu_mult"
   ],
   "note": ""
  },
  {
   "property": "C35",
   "status": "proved",
   "theorems": [
    "TLA.C35_getri_uili",
    "TLA.C35_getri_uxli",
    "TLA.C35_getrf_getri_uili",
    "TLA.C35_getri_uili_singular",
    "TLA.C35_getri_uxli_singular",
    "TLA.C35_getri_empty"
   ],
   "note": ""
  },
  {
   "property": "C36",
   "status": "proved",
   "theorems": [
    "TLA.C36_potrs",
    "TLA.C36_potrf_potrs",
    "TLA.C36_potri",
    "TLA.C36_potri_indefinite"
   ],
   "note": ""
  },
  {
   "property": "C37",
   "status": "proved",
   "theorems": [
    "TLA.C37_larfg_columnwise",
    "TLA.C37_larfg_rowwise"
   ],
   "note": ""
  },
  {
   "property": "C38",
   "status": "proved",
   "theorems": [
    "TLA.C38_larf",
    "TLA.C38_larf_parts_left",
    "TLA.C38_larf_parts_right",
    "TLA.C38_larf_parts_empty_violated",
    "TLA.C38_larf_parts_size_violated",
    "TLA.C38_unmq"
   ],
   "note": ""
  },
  {
   "property": "C39",
   "status": "proved",
   "theorems": [
    "TLA.C39_geqr2",
    "TLA.C39_geql2",
    "TLA.C39_gelq2",
    "TLA.C39_gerq2",
    "TLA.C39_ungq_columnwise",
    "TLA.C39_ungq_rowwise"
   ],
   "note": ""
  },
  {
   "property": "C40",
   "status": "proved",
   "theorems": [
    "TLA.C40_independent",
    "TLA.C40_unselected",
    "TLA.C40_trmv",
    "TLA.C40_trsv",
    "TLA.C40_trmm",
    "TLA.C40_trsm",
    "TLA.C40_hemv",
    "TLA.C40_symv",
    "TLA.C40_her",
    "TLA.C40_her2",
    "TLA.C40_syr",
    "TLA.C40_syr2",
    "TLA.C40_hemm",
    "TLA.C40_symm",
    "TLA.C40_herk",
    "TLA.C40_syrk",
    "TLA.C40_her2k",
    "TLA.C40_syr2k",
    "TLA.C40_potf2",
    "TLA.C40_potrf",
    "TLA.C40_potrs",
    "TLA.C40_trtri",
    "TLA.C40_lauum",
    "TLA.C40_potri",
    "TLA.C40_mult_llh",
    "TLA.C40_mult_uhu",
    "TLA.C40_lacpy",
    "TLA.C40_hasnan",
    "TLA.C40_lascl",
    "TLA.C40_trmm_out",
    "TLA.C40_trsm_tri",
    "TLA.C40_gemmtr",
    "TLA.C40_hemm2",
    "TLA.C40_mult_hehe",
    "TLA.C40_trmm_blocked",
    "TLA.C40_hetd2",
    "TLA.C40_lantr",
    "TLA.C40_lansy",
    "TLA.C40_lanhe",
    "TLA.C40_infnorm_sym",
    "TLA.C40_infnorm_triangular"
   ],
   "note": ""
  },
  {
   "property": "C41",
   "status": "proved",
   "theorems": [
    "TLA.C41_lauum",
    "TLA.C41_mult_llh",
    "TLA.C41_mult_uhu",
    "TLA.C41_mult_llh_potf2"
   ],
   "note": ""
  },
  {
   "property": "C42",
   "status": "proved",
   "theorems": [
    "TLA.C42_pttrf"
   ],
   "note": ""
  },
  {
   "property": "C43",
   "status": "proved",
   "theorems": [
    "TLA.C43_nrm2",
    "TLA.C43_nrm2_big",
    "TLA.C43_lassq",
    "TLA.C43_lapy"
   ],
   "note": ""
  },
  {
   "property": "C44",
   "status": "proved",
   "theorems": [
    "TLA.C44_copy",
    "TLA.C44_swap",
    "TLA.C44_scal",
    "TLA.C44_axpy",
    "TLA.C44_dot",
    "TLA.C44_dotu",
    "TLA.C44_rot",
    "TLA.C44_rotm",
    "TLA.C44_iamax",
    "TLA.C44_gemv",
    "TLA.C44_ger",
    "TLA.C44_geru",
    "TLA.C44_gemm",
    "TLA.C44_transpose",
    "TLA.C44_laset",
    "TLA.C44_getrf",
    "TLA.C44_ul_mult",
    "TLA.C44_lu_mult",
    "TLA.C44_getri_uili",
    "TLA.C44_getri_uxli",
    "TLA.C44_pttrf",
    "TLA.C44_nrm2",
    "TLA.C44_larfg",
    "TLA.C44_larf",
    "TLA.C44_geqr2",
    "TLA.C44_geql2",
    "TLA.C44_gelq2",
    "TLA.C44_gerq2",
    "TLA.C44_ungq",
    "TLA.C44_unmq",
    "TLA.C44_geqrf",
    "TLA.C44_geqlf",
    "TLA.C44_gelqf",
    "TLA.C44_gerqf",
    "TLA.C44_larft",
    "TLA.C44_larfb",
    "TLA.C44_unmqBlk",
    "TLA.C44_ungqBlk",
    "TLA.C44_gehd2",
    "TLA.C44_unghr",
    "TLA.C44_unmhr",
    "TLA.C44_gebd2",
    "TLA.C44_ungtr",
    "TLA.C44_commute",
    "TLA.C44_lange",
    "TLA.C44_infnorm_colmajor"
   ],
   "note": ""
  },
  {
   "property": "C45",
   "status": "proved",
   "theorems": [
    "TLA.C45_larft",
    "TLA.C45_larfb",
    "TLA.C45_larfb_shape_violated"
   ],
   "note": ""
  },
  {
   "property": "C46",
   "status": "proved",
   "theorems": [
    "TLA.C46_geqrf",
    "TLA.C46_geqlf",
    "TLA.C46_gelqf",
    "TLA.C46_gerqf",
    "TLA.C46_geqrf_nb0_violated"
   ],
   "note": ""
  },
  {
   "property": "C47",
   "status": "proved",
   "theorems": [
    "TLA.C47_unmq",
    "TLA.C47_unmq_nb",
    "TLA.C47_ungq_columnwise",
    "TLA.C47_ungq_rowwise",
    "TLA.C47_ungq_no_reflectors_violated"
   ],
   "note": ""
  },
  {
   "property": "C48",
   "status": "proved",
   "theorems": [
    "TLA.C48_lange",
    "TLA.C48_lantr",
    "TLA.C48_lansy",
    "TLA.C48_lanhe",
    "TLA.C48_lange_nan",
    "TLA.C48_lantr_nan",
    "TLA.C48_lansy_nan",
    "TLA.C48_lanhe_nan",
    "TLA.C48_two",
    "TLA.C48_frobenius",
    "TLA.C48_linfty",
    "TLA.C48_one"
   ],
   "note": ""
  },
  {
   "property": "C49",
   "status": "proved",
   "theorems": [
    "TLA.C49_infnorm_colmajor",
    "TLA.C49_infnorm_colmajor_nan",
    "TLA.C49_infnorm_sym",
    "TLA.C49_infnorm_triangular",
    "TLA.C49_infnorm_triangular_wide",
    "TLA.C49_infnorm_triangular_unit_lower"
   ],
   "note": ""
  },
  {
   "property": "C50",
   "status": "proved",
   "theorems": [
    "TLA.Kernel.C50_ladiv",
    "TLA.Kernel.C50_ladiv_real",
    "TLA.Kernel.C50_ladiv_zero"
   ],
   "note": ""
  },
  {
   "property": "C51",
   "status": "proved",
   "theorems": [
    "TLA.Kernel.C51_lae2",
    "TLA.Kernel.C51_laev2"
   ],
   "note": ""
  },
  {
   "property": "C52",
   "status": "proved",
   "theorems": [
    "TLA.Kernel.C52_singularvalues22",
    "TLA.Kernel.C52_svd22",
    "TLA.Kernel.C52_svd22_dominant"
   ],
   "note": ""
  },
  {
   "property": "C53",
   "status": "proved",
   "theorems": [
    "TLA.Kernel.C53_lartg",
    "TLA.Kernel.C53_rotg",
    "TLA.Kernel.C53_rotgC"
   ],
   "note": ""
  },
  {
   "property": "C54",
   "status": "proved",
   "theorems": [
    "TLA.Kernel.C54_rotm",
    "TLA.Kernel.C54_rotmg",
    "TLA.Kernel.C54_rotmg_ends",
    "TLA.Kernel.C54_rotmg_id",
    "TLA.Kernel.C54_rotmg_violation"
   ],
   "note": ""
  },
  {
   "property": "C55",
   "status": "proved",
   "theorems": [
    "TLA.Kernel.C55_eig22",
    "TLA.Kernel.C55_eig22C",
    "TLA.Kernel.C55_schur22",
    "TLA.Kernel.C55_schur22_zero",
    "TLA.Kernel.C55_schur22_equal_diag",
    "TLA.Kernel.C55_schur22_skew",
    "TLA.Kernel.C55_schur22_defective",
    "TLA.Kernel.C55_shiftcolumn2",
    "TLA.Kernel.C55_shiftcolumn3",
    "TLA.Kernel.C55_shiftcolumn2C",
    "TLA.Kernel.C55_shiftcolumn3C"
   ],
   "note": ""
  },
  {
   "property": "C56",
   "status": "proved",
   "theorems": [
    "TLA.Kernel.C56_laed5"
   ],
   "note": ""
  },
  {
   "property": "C57",
   "status": "proved",
   "theorems": [
    "TLA.Kernel.C57_inv_house3",
    "TLA.Kernel.C57_inv_house3_small",
    "TLA.Kernel.C57_inv_house3_swapped",
    "TLA.Kernel.C57_inv_house3_violation"
   ],
   "note": ""
  },
  {
   "property": "C58",
   "status": "proved",
   "theorems": [
    "TLA.C58_gehd2",
    "TLA.C58_gehd2_empty_violated",
    "TLA.C58_gehd2_ihi0_violated"
   ],
   "note": ""
  },
  {
   "property": "C59",
   "status": "proved",
   "theorems": [
    "TLA.C59_unghr",
    "TLA.C59_unmhr",
    "TLA.C59_unghr_ihi0_violated"
   ],
   "note": ""
  },
  {
   "property": "C60",
   "status": "proved",
   "theorems": [
    "TLA.C60_gebd2_upper",
    "TLA.C60_gebd2_lower"
   ],
   "note": ""
  },
  {
   "property": "C61",
   "status": "proved",
   "theorems": [
    "TLA.C61_hetd2",
    "TLA.C61_ungtr"
   ],
   "note": ""
  },
  {
   "property": "C62",
   "status": "proved",
   "theorems": [
    "TLA.C62_trmm_out_right",
    "TLA.C62_trmm_out_left",
    "TLA.C62_trmm_out_empty_violated"
   ],
   "note": ""
  },
  {
   "property": "C63",
   "status": "proved",
   "theorems": [
    "TLA.C63_trsm_tri_left",
    "TLA.C63_trsm_tri_right",
    "TLA.C63_trsm_tri_empty_violated"
   ],
   "note": ""
  },
  {
   "property": "C64",
   "status": "proved",
   "theorems": [
    "TLA.C64_gemmtr",
    "TLA.C64_gemmtr_check_violated"
   ],
   "note": ""
  },
  {
   "property": "C65",
   "status": "proved",
   "theorems": [
    "TLA.C65_hemm2_left",
    "TLA.C65_hemm2_right",
    "TLA.C65_hemm2_general_right_violated",
    "TLA.C65_hemm2_general_left_violated",
    "TLA.C65_mult_hehe",
    "TLA.C65_mult_hehe_empty_violated"
   ],
   "note": ""
  },
  {
   "property": "C66",
   "status": "proved",
   "theorems": [
    "TLA.C66_trmm_blocked",
    "TLA.C66_trmm_blocked_unimplemented_violated"
   ],
   "note": ""
  },
  {
   "property": "C67",
   "status": "proved",
   "theorems": [
    "TLA.C67_rot_sequence_left",
    "TLA.C67_rot_sequence_right",
    "TLA.C67_direction_violated",
    "TLA.C67_empty_violated",
    "TLA.C67_rot_sequence_footprint"
   ],
   "note": ""
  },
  {
   "property": "C68",
   "status": "proved",
   "theorems": [
    "TLA.C68_hessenberg_rq",
    "TLA.C68_hessenberg_rq_complex",
    "TLA.C68_empty_violated",
    "TLA.C68_hessenberg_rq_footprint"
   ],
   "note": ""
  },
  {
   "property": "C69",
   "status": "proved",
   "theorems": [
    "TLA.C69_gghrd",
    "TLA.C69_gghrd_pencil",
    "TLA.C69_unwanted_q_violated",
    "TLA.C69_gghrd_footprint"
   ],
   "note": ""
  },
  {
   "property": "C70",
   "status": "proved",
   "theorems": [
    "TLA.C70_tik_qr",
    "TLA.C70_tik_qr_min",
    "TLA.C70_tkhnv_rejects"
   ],
   "note": ""
  },
  {
   "property": "C71",
   "status": "proved",
   "theorems": [
    "TLA.C71_steqr",
    "TLA.C71_steqr_two",
    "TLA.C71_code_never_positive",
    "TLA.C71_constant_diagonal_violated"
   ],
   "note": ""
  },
  {
   "property": "C72",
   "status": "proved",
   "theorems": [
    "TLA.C72_ungbr_q_wide",
    "TLA.C72_ungbr_q_tall",
    "TLA.C72_ungbr_p_tall",
    "TLA.C72_ungbr_p_wide",
    "TLA.C72_ungbr_empty_violated"
   ],
   "note": ""
  },
  {
   "property": "C73",
   "status": "proved",
   "theorems": [
    "TLA.C73_gelqt",
    "TLA.C73_gelqt_tall_violated",
    "TLA.C73_gelqt_column_violated"
   ],
   "note": ""
  },
  {
   "property": "C74",
   "status": "proved",
   "theorems": [
    "TLA.C74_geqrt3",
    "TLA.C74_geqrt3_wide"
   ],
   "note": ""
  },
  {
   "property": "C75",
   "status": "proved",
   "theorems": [
    "TLA.C75_gehrd",
    "TLA.C75_gehrd_tau_violated",
    "TLA.C75_gehrd_empty_violated"
   ],
   "note": ""
  },
  {
   "property": "C76",
   "status": "proved",
   "theorems": [
    "TLA.C76_gebrd_upper",
    "TLA.C76_gebrd_lower",
    "TLA.C76_gebrd_nb0_violated"
   ],
   "note": ""
  },
  {
   "property": "C77",
   "status": "proved",
   "theorems": [
    "TLA.C77_householder_qr",
    "TLA.C77_householder_ql",
    "TLA.C77_householder_lq",
    "TLA.C77_householder_rq",
    "TLA.C77_householder_q_mul",
    "TLA.C77_gen_householder_q_columnwise",
    "TLA.C77_gen_householder_q_rowwise",
    "TLA.C77_hessenberg",
    "TLA.C77_bidiag_upper",
    "TLA.C77_bidiag_lower"
   ],
   "note": ""
  },
  {
   "property": "C78",
   "status": "proved",
   "theorems": [
    "TLA.C78_rot_sequence3_left",
    "TLA.C78_rot_sequence3_right",
    "TLA.C78_rot_sequence3_blocks_violated"
   ],
   "note": ""
  },
  {
   "property": "C79",
   "status": "proved",
   "theorems": [
    "TLA.C79_schur_swap",
    "TLA.C79_schur_move",
    "TLA.C79_schur_move_decomposition",
    "TLA.C79_schur_move_complex",
    "TLA.C79_swap_bounds_violated"
   ],
   "note": ""
  },
  {
   "property": "C80",
   "status": "proved",
   "theorems": [
    "TLA.C80_lahqr",
    "TLA.C80_lahqr_eigenvalues",
    "TLA.C80_lahqr_total",
    "TLA.C80_lahqr_out_of_range_violated"
   ],
   "note": ""
  },
  {
   "property": "C81",
   "status": "proved",
   "theorems": [
    "TLA.C81_svd_qr",
    "TLA.C81_two"
   ],
   "note": ""
  },
  {
   "property": "C82",
   "status": "proved",
   "theorems": [
    "TLA.C82_gesvd",
    "TLA.C82_thin",
    "TLA.C82_empty_violated"
   ],
   "note": ""
  },
  {
   "property": "C83",
   "status": "proved",
   "theorems": [
    "TLA.C83_alpha",
    "TLA.C83_hetrf_lower",
    "TLA.C83_nonsingular",
    "TLA.C83_nb1_violated",
    "TLA.C83_uninit_violated",
    "TLA.C83_last_violated",
    "TLA.C83_singular_violated"
   ],
   "note": ""
  },
  {
   "property": "C84",
   "status": "proved",
   "theorems": [
    "TLA.C84_trevc",
    "TLA.C84_back_right",
    "TLA.C84_back_left",
    "TLA.C84_repeated_violated"
   ],
   "note": ""
  },
  {
   "property": "C85",
   "status": "proved",
   "theorems": [
    "TLA.C85_copy",
    "TLA.C85_swap",
    "TLA.C85_axpy",
    "TLA.C85_scal",
    "TLA.C85_dot",
    "TLA.C85_dotu",
    "TLA.C85_rot",
    "TLA.C85_rotm_flag_violated",
    "TLA.C85_gemv",
    "TLA.C85_gemv_empty",
    "TLA.C85_gemv_rejects",
    "TLA.C85_trmv",
    "TLA.C85_trsv",
    "TLA.C85_hemv",
    "TLA.C85_symv",
    "TLA.C85_ger",
    "TLA.C85_geru",
    "TLA.C85_syr",
    "TLA.C85_syr2",
    "TLA.C85_her",
    "TLA.C85_her2",
    "TLA.C85_her_real",
    "TLA.C85_her_rowmajor_violated",
    "TLA.C85_her2_rowmajor_violated",
    "TLA.C85_gemv_alias_violated"
   ],
   "note": ""
  },
  {
   "property": "C86",
   "status": "proved",
   "theorems": [
    "TLA.C86_gemm",
    "TLA.C86_hemm",
    "TLA.C86_symm",
    "TLA.C86_trmm",
    "TLA.C86_trsm",
    "TLA.C86_herk",
    "TLA.C86_syrk",
    "TLA.C86_her2k",
    "TLA.C86_syr2k",
    "TLA.C86_alpha0_violated"
   ],
   "note": ""
  },
  {
   "property": "C87",
   "status": "proved",
   "theorems": [
    "TLA.C87_lacpy",
    "TLA.C87_lacpy_type",
    "TLA.C87_laset",
    "TLA.C87_laset_type",
    "TLA.C87_lascl",
    "TLA.C87_lascl_band_violated",
    "TLA.C87_larf",
    "TLA.C87_lange",
    "TLA.C87_lansy",
    "TLA.C87_lanhe",
    "TLA.C87_lantr",
    "TLA.C87_lassq",
    "TLA.C87_potrf",
    "TLA.C87_potrs",
    "TLA.C87_geqr2",
    "TLA.C87_ung2r",
    "TLA.C87_ung2r_k_ignored_violated",
    "TLA.C87_ung2r_value_violated",
    "TLA.C87_unmqr",
    "TLA.C87_larft",
    "TLA.C87_larfb"
   ],
   "note": ""
  },
  {
   "property": "C88",
   "status": "proved",
   "theorems": [
    "TLA.C88_generalized_schur_swap",
    "TLA.C88_generalized_schur_move",
    "TLA.C88_move_decomposition",
    "TLA.C88_generalized_schur_move_complex",
    "TLA.C88_swap_bounds_violated",
    "TLA.C88_singular_not_swapped_violated"
   ],
   "note": ""
  },
  {
   "property": "C89",
   "status": "proved",
   "theorems": [
    "TLA.C89_tik_elden",
    "TLA.C89_tik_elden_min",
    "TLA.C89_agrees_with_qr",
    "TLA.C89_empty_violated"
   ],
   "note": ""
  },
  {
   "property": "C90",
   "status": "proved",
   "theorems": [
    "TLA.C90_tik_svd"
   ],
   "note": ""
  },
  {
   "property": "C91",
   "status": "proved",
   "theorems": [
    "TLA.C91_move_bulge",
    "TLA.C91_restart_violated"
   ],
   "note": ""
  },
  {
   "property": "C92",
   "status": "proved",
   "theorems": [
    "TLA.Kernel.C92_eig22",
    "TLA.Kernel.C92_eig22_complex",
    "TLA.Kernel.C92_eig22_complex_identity_violated",
    "TLA.Kernel.C92_eig22_complex_scaling_violated",
    "TLA.Kernel.C92_shiftcolumn",
    "TLA.Kernel.C92_shiftcolumn_complex",
    "TLA.Kernel.C92_shiftcolumn_deflated_violated",
    "TLA.Kernel.C92_shiftcolumn2",
    "TLA.Kernel.C92_shiftcolumn2_violated"
   ],
   "note": ""
  },
  {
   "property": "C93",
   "status": "proved",
   "theorems": [
    "TLA.C93_pbtrf",
    "TLA.C93_kd_lt_nb_violated",
    "TLA.C93_failure_ignored"
   ],
   "note": ""
  },
  {
   "property": "C94",
   "status": "proved",
   "theorems": [
    "TLA.Kernel.C94_lasy2_22",
    "TLA.Kernel.C94_lasy2_11",
    "TLA.Kernel.C94_lasy2_empty",
    "TLA.Kernel.C94_mixed_violated",
    "TLA.Kernel.C94_conjtrans_violated"
   ],
   "note": ""
  },
  {
   "property": "C95",
   "status": "proved",
   "theorems": [
    "TLA.C95_trge_qr2",
    "TLA.C95_trge_ung2r",
    "TLA.C95_trge_ung2r_zero",
    "TLA.C95_trge_ung2r_not_orthonormal",
    "TLA.C95_trge_qr2_empty_violated",
    "TLA.C95_trge_ung2r_empty_violated"
   ],
   "note": ""
  },
  {
   "property": "C96",
   "status": "proved",
   "theorems": [
    "TLA.C96_exchange",
    "TLA.C96_schur_swap"
   ],
   "note": ""
  },
  {
   "property": "C97",
   "status": "proved",
   "theorems": [
    "TLA.C97_schur_move_down",
    "TLA.C97_schur_move_up",
    "TLA.C97_schur_move_same",
    "TLA.C97_schur_move_fails"
   ],
   "note": ""
  },
  {
   "property": "C98",
   "status": "proved",
   "theorems": [
    "TLA.Kernel.C98_secular_root",
    "TLA.Kernel.C98_laed6",
    "TLA.Kernel.C98_laed6_pole_violated"
   ],
   "note": ""
  },
  {
   "property": "C99",
   "status": "proved",
   "theorems": [
    "TLA.C99_geqrf_ungqr",
    "TLA.C99_geqlf_ungql",
    "TLA.C99_gelqf_unglq",
    "TLA.C99_gerqf_ungrq",
    "TLA.C99_unmq_restores",
    "TLA.C99_geqrf_unmqr"
   ],
   "note": ""
  },
  {
   "property": "C100",
   "status": "proved",
   "theorems": [
    "TLA.Kernel.C100_lahqz_schur22"
   ],
   "note": ""
  },
  {
   "property": "C101",
   "status": "proved",
   "theorems": [
    "TLA.C101_lahqz_infinite",
    "TLA.C101_lahqz_infinite_found",
    "TLA.C101_perturbation"
   ],
   "note": ""
  }
 ]
}