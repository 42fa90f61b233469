lake-manifest.json
.lake/
