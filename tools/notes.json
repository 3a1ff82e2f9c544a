{
"C09": "The code can loop forever; the exact inputs are characterised (C09_outcome), divergence of the loop is proved (C09_hang_is_real) and termination is proved for all other inputs.",
"C10": "Refutes the intended behaviour (an entry in record.errors): every unknown version number raises TypeError.",
"C12": "Exact characterisation; C12_empty_value_flagged shows the surprising case 'Name:\\r\\n'.",
"C15": "Same-case names only; C15_case_variant_survives shows what happens with a differently cased earlier header.",
"C54": "C54_seek_exact is the part that holds for every history, C54_seek_defect shows that seeking in the middle of a payload is not enough.",
"C57": "Refutes the intended behaviour: negative sizes run past the payload.",
"C23": "Exact characterisation of the guess; C23_arc_misdetected shows that an ARC file named '...warc/...' is taken for WARC.",
"C25": "Refutes the intended behaviour: offsets in compressed archives are never reported (None) on CPython >= 3.5.",
"C26": "Refutes the intended behaviour: gzip='file' streams never yield a record (NameError).",
"C28": "Also: too few values raise TypeError, and the rule does not apply when URL is the only field.",
"C31": "The exceptions named in the statement are necessary: messages that come out differently in pieces are exhibited for the first three, the fourth is C39.",
"C69": "Refutes the intended behaviour (files are unpacked).",
"C56": "Shows where confinement holds and that '..' in a URL leaves the directory.",
"C53": "Refutes the intended behaviour: ranges are one byte too long and the answer raises TypeError.",
"C50": "Refutes uniqueness: two records can be given the same id.",
"C62": "Includes the defects of feed_fd and readLine.",
"C66": "Exact output; also the records on which warcdump raises.",
"C67": "Cut law of the codec (Codec.Cut) is the only assumption, with the toy instance.",
"C70": "Full for the described references; the other theorems of C70 describe the cases where the code departs from RFC 3986.",
"C72": "Refutes the intended behaviour."
}