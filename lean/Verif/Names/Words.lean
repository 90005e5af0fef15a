/-
The C++ keywords and standard macros of common/code_gen_utils.rs (data for C169).
-/

namespace Verif.Names

/-- `RESERVED_CC_KEYWORDS` (common/code_gen_utils.rs:57-153) -/
def keywordStrings : List String := [
    "alignas", "alignof", "and", "and_eq", "asm", "atomic_cancel", "atomic_commit", "atomic_noexcept", "auto",
    "bitand", "bitor", "bool", "break", "case", "catch", "char", "char8_t", "char16_t", "char32_t", "class", "compl",
    "concept", "const", "consteval", "constexpr", "constinit", "const_cast", "continue", "co_await", "co_return",
    "co_yield", "decltype", "default", "delete", "do", "double", "dynamic_cast", "else", "enum", "explicit", "export",
    "extern", "false", "float", "for", "friend", "goto", "if", "inline", "int", "long", "mutable", "namespace", "new",
    "noexcept", "not", "not_eq", "nullptr", "operator", "or", "or_eq", "private", "protected", "public", "reflexpr",
    "register", "reinterpret_cast", "requires", "return", "short", "signed", "sizeof", "static", "static_assert",
    "static_cast", "struct", "switch", "synchronized", "template", "this", "thread_local", "throw", "true", "try",
    "typedef", "typeid", "typename", "union", "unsigned", "using", "virtual", "void", "volatile", "wchar_t", "while",
    "xor", "xor_eq"]

/-- `RESERVED_CC_MACROS` (common/code_gen_utils.rs:172-632) -/
def macroStrings : List String := [
    "__alignas_is_defined", "__bool_true_false_are_defined", "__STDC_ENDIAN_BIG__", "__STDC_ENDIAN_LITTLE__",
    "__STDC_ENDIAN_NATIVE__", "__STDC_VERSION_STDBIT_H__", "__STDC_VERSION_STDCKDINT_H__", "_Atomic", "_IOFBF",
    "_IOLBF", "_IONBF", "assert", "ATOMIC_BOOL_LOCK_FREE", "ATOMIC_CHAR_LOCK_FREE", "ATOMIC_CHAR16_T_LOCK_FREE",
    "ATOMIC_CHAR32_T_LOCK_FREE", "ATOMIC_CHAR8_T_LOCK_FREE", "ATOMIC_FLAG_INIT", "ATOMIC_INT_LOCK_FREE",
    "ATOMIC_LLONG_LOCK_FREE", "ATOMIC_LONG_LOCK_FREE", "ATOMIC_POINTER_LOCK_FREE", "ATOMIC_SHORT_LOCK_FREE",
    "ATOMIC_VAR_INIT", "ATOMIC_WCHAR_T_LOCK_FREE", "BOOL_WIDTH", "BUFSIZ", "CHAR_BIT", "CHAR_MAX", "CHAR_MIN",
    "CHAR_WIDTH", "CLOCKS_PER_SEC", "DBL_DECIMAL_DIG", "DBL_DIG", "DBL_EPSILON", "DBL_HAS_SUBNORM", "DBL_MANT_DIG",
    "DBL_MAX", "DBL_MAX_10_EXP", "DBL_MAX_EXP", "DBL_MIN", "DBL_MIN_10_EXP", "DBL_MIN_EXP", "DBL_TRUE_MIN",
    "DECIMAL_DIG", "E2BIG", "EACCES", "EADDRINUSE", "EADDRNOTAVAIL", "EAFNOSUPPORT", "EAGAIN", "EALREADY", "EBADF",
    "EBADMSG", "EBUSY", "ECANCELED", "ECHILD", "ECONNABORTED", "ECONNREFUSED", "ECONNRESET", "EDEADLK",
    "EDESTADDRREQ", "EDOM", "EEXIST", "EFAULT", "EFBIG", "EHOSTUNREACH", "EIDRM", "EILSEQ", "EINPROGRESS", "EINTR",
    "EINVAL", "EIO", "EISCONN", "EISDIR", "ELOOP", "EMFILE", "EMLINK", "EMSGSIZE", "ENAMETOOLONG", "ENETDOWN",
    "ENETRESET", "ENETUNREACH", "ENFILE", "ENOBUFS", "ENODATA", "ENODEV", "ENOENT", "ENOEXEC", "ENOLCK", "ENOLINK",
    "ENOMEM", "ENOMSG", "ENOPROTOOPT", "ENOSPC", "ENOSR", "ENOSTR", "ENOSYS", "ENOTCONN", "ENOTDIR", "ENOTEMPTY",
    "ENOTRECOVERABLE", "ENOTSOCK", "ENOTSUP", "ENOTTY", "ENXIO", "EOF", "EOPNOTSUPP", "EOVERFLOW", "EOWNERDEAD",
    "EPERM", "EPIPE", "EPROTO", "EPROTONOSUPPORT", "EPROTOTYPE", "ERANGE", "EROFS", "errno", "ESPIPE", "ESRCH",
    "ETIME", "ETIMEDOUT", "ETXTBSY", "EWOULDBLOCK", "EXDEV", "EXIT_FAILURE", "EXIT_SUCCESS", "FE_ALL_EXCEPT",
    "FE_DFL_ENV", "FE_DIVBYZERO", "FE_DOWNWARD", "FE_INEXACT", "FE_INVALID", "FE_OVERFLOW", "FE_TONEAREST",
    "FE_TOWARDZERO", "FE_UNDERFLOW", "FE_UPWARD", "FILENAME_MAX", "FLT_DECIMAL_DIG", "FLT_DIG", "FLT_EPSILON",
    "FLT_EVAL_METHOD", "FLT_HAS_SUBNORM", "FLT_MANT_DIG", "FLT_MAX", "FLT_MAX_10_EXP", "FLT_MAX_EXP", "FLT_MIN",
    "FLT_MIN_10_EXP", "FLT_MIN_EXP", "FLT_RADIX", "FLT_ROUNDS", "FLT_TRUE_MIN", "FOPEN_MAX", "FP_FAST_FMA",
    "FP_FAST_FMAF", "FP_FAST_FMAL", "FP_ILOGB0", "FP_ILOGBNAN", "FP_SUBNORMAL", "FP_ZERO", "FP_INFINITE", "FP_NAN",
    "FP_NORMAL", "HUGE_VAL", "HUGE_VALF", "HUGE_VALL", "INFINITY", "INT_FAST16_MAX", "INT_FAST16_MIN",
    "INT_FAST32_MAX", "INT_FAST32_MIN", "INT_FAST64_MAX", "INT_FAST64_MIN", "INT_FAST8_MAX", "INT_FAST8_MIN",
    "INT_LEAST16_MAX", "INT_LEAST16_MIN", "INT_LEAST32_MAX", "INT_LEAST32_MIN", "INT_LEAST64_MAX", "INT_LEAST64_MIN",
    "INT_LEAST8_MAX", "INT_LEAST8_MIN", "INT_MAX", "INT_MIN", "INT_WIDTH", "INT16_C", "INT16_MAX", "INT16_MIN",
    "INT32_C", "INT32_MAX", "INT32_MIN", "INT64_C", "INT64_MAX", "INT64_MIN", "INT8_C", "INT8_MAX", "INT8_MIN",
    "INTMAX_C", "INTMAX_MAX", "INTMAX_MIN", "INTPTR_MAX", "INTPTR_MIN", "L_tmpnam", "LC_ALL", "LC_COLLATE",
    "LC_CTYPE", "LC_MONETARY", "LC_NUMERIC", "LC_TIME", "LDBL_DECIMAL_DIG", "LDBL_DIG", "LDBL_EPSILON",
    "LDBL_HAS_SUBNORM", "LDBL_MANT_DIG", "LDBL_MAX", "LDBL_MAX_10_EXP", "LDBL_MAX_EXP", "LDBL_MIN", "LDBL_MIN_10_EXP",
    "LDBL_MIN_EXP", "LDBL_TRUE_MIN", "LLONG_MAX", "LLONG_MIN", "LLONG_WIDTH", "LONG_MAX", "LONG_MIN", "LONG_WIDTH",
    "MATH_ERREXCEPT", "math_errhandling", "MATH_ERRNO", "MB_CUR_MAX", "MB_LEN_MAX", "NAN", "NULL", "offsetof",
    "ONCE_FLAG_INIT", "PRId16", "PRId32", "PRId64", "PRId8", "PRIdFAST16", "PRIdFAST32", "PRIdFAST64", "PRIdFAST8",
    "PRIdLEAST16", "PRIdLEAST32", "PRIdLEAST64", "PRIdLEAST8", "PRIdMAX", "PRIdPTR", "PRIi16", "PRIi32", "PRIi64",
    "PRIi8", "PRIiFAST16", "PRIiFAST32", "PRIiFAST64", "PRIiFAST8", "PRIiLEAST16", "PRIiLEAST32", "PRIiLEAST64",
    "PRIiLEAST8", "PRIiMAX", "PRIiPTR", "PRIo16", "PRIo32", "PRIo64", "PRIo8", "PRIoFAST16", "PRIoFAST32",
    "PRIoFAST64", "PRIoFAST8", "PRIoLEAST16", "PRIoLEAST32", "PRIoLEAST64", "PRIoLEAST8", "PRIoMAX", "PRIoPTR",
    "PRIu16", "PRIu32", "PRIu64", "PRIu8", "PRIuFAST16", "PRIuFAST32", "PRIuFAST64", "PRIuFAST8", "PRIuLEAST16",
    "PRIuLEAST32", "PRIuLEAST64", "PRIuLEAST8", "PRIuMAX", "PRIuPTR", "PRIx16", "PRIX16", "PRIx32", "PRIX32",
    "PRIx64", "PRIX64", "PRIx8", "PRIX8", "PRIxFAST16", "PRIXFAST16", "PRIxFAST32", "PRIXFAST32", "PRIxFAST64",
    "PRIXFAST64", "PRIxFAST8", "PRIXFAST8", "PRIxLEAST16", "PRIXLEAST16", "PRIxLEAST32", "PRIXLEAST32", "PRIxLEAST64",
    "PRIXLEAST64", "PRIxLEAST8", "PRIXLEAST8", "PRIxMAX", "PRIXMAX", "PRIxPTR", "PRIXPTR", "PTRDIFF_MAX",
    "PTRDIFF_MIN", "RAND_MAX", "SCHAR_MAX", "SCHAR_MIN", "SCHAR_WIDTH", "SCNd16", "SCNd32", "SCNd64", "SCNd8",
    "SCNdFAST16", "SCNdFAST32", "SCNdFAST64", "SCNdFAST8", "SCNdLEAST16", "SCNdLEAST32", "SCNdLEAST64", "SCNdLEAST8",
    "SCNdMAX", "SCNdPTR", "SCNi16", "SCNi32", "SCNi64", "SCNi8", "SCNiFAST16", "SCNiFAST32", "SCNiFAST64",
    "SCNiFAST8", "SCNiLEAST16", "SCNiLEAST32", "SCNiLEAST64", "SCNiLEAST8", "SCNiMAX", "SCNiPTR", "SCNo16", "SCNo32",
    "SCNo64", "SCNo8", "SCNoFAST16", "SCNoFAST32", "SCNoFAST64", "SCNoFAST8", "SCNoLEAST16", "SCNoLEAST32",
    "SCNoLEAST64", "SCNoLEAST8", "SCNoMAX", "SCNoPTR", "SCNu16", "SCNu32", "SCNu64", "SCNu8", "SCNuFAST16",
    "SCNuFAST32", "SCNuFAST64", "SCNuFAST8", "SCNuLEAST16", "SCNuLEAST32", "SCNuLEAST64", "SCNuLEAST8", "SCNuMAX",
    "SCNuPTR", "SCNx16", "SCNx32", "SCNx64", "SCNx8", "SCNxFAST16", "SCNxFAST32", "SCNxFAST64", "SCNxFAST8",
    "SCNxLEAST16", "SCNxLEAST32", "SCNxLEAST64", "SCNxLEAST8", "SCNxMAX", "SCNxPTR", "SEEK_CUR", "SEEK_END",
    "SEEK_SET", "setjmp", "SHRT_MAX", "SHRT_MIN", "SHRT_WIDTH", "SIG_ATOMIC_MAX", "SIG_ATOMIC_MIN", "SIG_DFL",
    "SIG_ERR", "SIG_IGN", "SIGABRT", "SIGFPE", "SIGILL", "SIGINT", "SIGSEGV", "SIGTERM", "SIZE_MAX", "stderr",
    "stdin", "stdout", "TIME_UTC", "TMP_MAX", "UCHAR_MAX", "UCHAR_WIDTH", "UINT_FAST16_MAX", "UINT_FAST32_MAX",
    "UINT_FAST64_MAX", "UINT_FAST8_MAX", "UINT_LEAST16_MAX", "UINT_LEAST32_MAX", "UINT_LEAST64_MAX",
    "UINT_LEAST8_MAX", "UINT_MAX", "UINT_WIDTH", "UINT16_C", "UINT16_MAX", "UINT32_C", "UINT32_MAX", "UINT64_MAX",
    "UINT64_C", "UINT8_C", "UINT8_MAX", "UINTMAX_C", "UINTMAX_MAX", "UINTPTR_MAX", "ULLONG_MAX", "ULLONG_WIDTH",
    "ULONG_MAX", "ULONG_WIDTH", "USHRT_MAX", "USHRT_WIDTH", "va_arg", "va_copy", "va_end", "va_start", "WCHAR_MAX",
    "WCHAR_MIN", "WEOF", "WINT_MAX", "WINT_MIN"]

def keywords : List (List Char) := keywordStrings.map String.toList

def macros : List (List Char) := macroStrings.map String.toList

end Verif.Names
