{
 "C08": {
  "status": "partial",
  "note": "The full property is false of the code: C08_refuted exhibits a dataset where the code over-counts. Proved: it never under-counts, and the exact condition under which the count is correct."
 },
 "C45": {
  "status": "partial",
  "note": "The full property is false of the code when a variable filter is given: C45_shared exhibits the inner dictionaries shared between result and original. Proved without a variable filter, and for the outer level with one."
 },
 "C52": {
  "status": "partial",
  "note": "The full property is false of the code: C52_unhandled_usums, C52_unhandled_average_log and C52_unhandled_previous exhibit requests answered by an uncaught exception. Proved: the exact answer for every request whose parsed parameters give sound algorithm configurations and whose previous results are usable (exact arithmetic), the meaning of the parameters field, which malformed requests give 400, and that an error status is 400, or 500 for a ConvergenceError. Independence of requests is built into the model: the response is a function of request and environment."
 }
}