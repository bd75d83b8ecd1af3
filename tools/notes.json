{
 "C08": {"note": "C08_gemv is the documented result whenever op(A) has a column; C08_gemv_empty/C08_gemv_doc_violated prove what the code does instead for zero columns (y left unscaled)."}
}
