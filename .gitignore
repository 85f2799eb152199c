lake-manifest.json
.lake
